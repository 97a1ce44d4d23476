import Verif.Cluster.Classes

/-!
# Launcher classes are found again (C100)

The class of a launcher can be given by an abbreviation in any case, by its full name, or
as the class itself; a cluster that is saved and loaded has the classes it had.
-/
namespace IPP.Cluster.Classes

/-- The classes that exist: names are identifiers, module names have no colon, and a module
has one class of a name. -/
structure WorldOK (ws : List Cls) : Prop where
  modColon : ∀ c ∈ ws, ':' ∉ c.module
  nameColon : ∀ c ∈ ws, ':' ∉ c.name
  nameDot : ∀ c ∈ ws, '.' ∉ c.name
  uniq : ∀ c ∈ ws, ∀ d ∈ ws, c.module = d.module → c.name = d.name → c = d

/-- Two entry points of the group do not differ only in the case of their names. -/
def NamesDistinct (g : List Entry) : Prop :=
  g.Pairwise (fun a b => lower a.name ≠ lower b.name)

/-- `s` is, up to case, a name registered in the group. -/
def IsRegisteredName (g : List Entry) (s : Text) : Prop :=
  ∃ e ∈ g, lower e.name = lower s

/-- Class `c` is registered in the group under the name `n` (up to case). -/
def RegisteredAs (g : List Entry) (c : Cls) (n : Text) : Prop :=
  ∃ e ∈ g, lower e.name = lower n ∧ e.value = c.module ++ ':' :: c.name

/-! ## Texts -/

theorem toLower_idem (c : Char) : c.toLower.toLower = c.toLower := by
  have hmin : ∀ d : Char, ¬ (65 ≤ d.val ∧ d.val ≤ 90) → d.toLower = d := by
    intro d hd
    unfold Char.toLower
    rw [dif_neg]
    exact hd
  by_cases h : 65 ≤ c.val ∧ c.val ≤ 90
  · have hv : c.toLower.val = c.val + 32 := by
      unfold Char.toLower
      rw [dif_pos (show c.val ≥ 'A'.val ∧ c.val ≤ 'Z'.val from h)]
      rfl
    apply hmin
    rw [hv]
    obtain ⟨h1, h2⟩ := h
    rw [UInt32.le_iff_toNat_le] at h1 h2
    rintro ⟨_, h4⟩
    rw [UInt32.le_iff_toNat_le, UInt32.toNat_add] at h4
    simp at h1 h2 h4
    omega
  · rw [hmin c h, hmin c h]

theorem lower_idem (s : Text) : lower (lower s) = lower s := by
  unfold lower
  rw [List.map_map]
  apply List.map_congr_left
  intro c _
  exact toLower_idem c

theorem split_first {x : Char} :
    ∀ {a b a' b' : Text}, x ∉ a → x ∉ a' → a ++ x :: b = a' ++ x :: b' → a = a' ∧ b = b'
  | [], b, [], b', _, _, h => by simpa using h
  | [], b, y :: a', b', _, h2, h => by
    simp at h h2
    exact absurd h.1 h2.1
  | y :: a, b, [], b', h1, _, h => by
    simp at h h1
    exact absurd h.1.symm h1.1
  | y :: a, b, y' :: a', b', h1, h2, h => by
    simp at h h1 h2
    obtain ⟨he, h⟩ := h
    obtain ⟨ha, hb⟩ := split_first h1.2 h2.2 h
    exact ⟨by rw [he, ha], hb⟩

theorem split_last {x : Char} {a b a' b' : Text} (h1 : x ∉ b) (h2 : x ∉ b')
    (h : a ++ x :: b = a' ++ x :: b') : a = a' ∧ b = b' := by
  have hr := congrArg List.reverse h
  simp only [List.reverse_append, List.reverse_cons, List.append_assoc,
    List.singleton_append] at hr
  have h1' : x ∉ b.reverse := by simpa using h1
  have h2' : x ∉ b'.reverse := by simpa using h2
  obtain ⟨hb, ha⟩ := split_first h1' h2' hr
  exact ⟨by simpa using ha, by simpa using hb⟩

theorem key_inj {ws : List Cls} (w : WorldOK ws) {c d : Cls} (hc : c ∈ ws) (hd : d ∈ ws)
    (h : c.key = d.key) : c = d := by
  obtain ⟨h1, h2⟩ := split_first (w.modColon c hc) (w.modColon d hd) h
  exact w.uniq c hc d hd h1 h2

theorem dotted_inj {ws : List Cls} (w : WorldOK ws) {c d : Cls} (hc : c ∈ ws) (hd : d ∈ ws)
    (h : c.dotted = d.dotted) : c = d := by
  obtain ⟨h1, h2⟩ := split_last (w.nameDot c hc) (w.nameDot d hd) h
  exact w.uniq c hc d hd h1 h2

theorem key_ne_dotted {ws : List Cls} (w : WorldOK ws) {d : Cls} (hd : d ∈ ws) (c : Cls) :
    d.dotted ≠ c.key := by
  intro h
  have : ':' ∈ d.dotted := by rw [h]; simp [Cls.key]
  simp only [Cls.dotted, List.mem_append, List.mem_cons] at this
  rcases this with h | h | h
  · exact w.modColon d hd h
  · exact absurd h (by decide)
  · exact w.nameColon d hd h

/-! ## Looking things up -/

theorem loadValue_key {ws : List Cls} (w : WorldOK ws) {c : Cls} (hc : c ∈ ws) :
    loadValue ws c.key = some c := by
  unfold loadValue
  cases h : ws.find? (fun d => d.key == c.key) with
  | none =>
    have := List.find?_eq_none.mp h c hc
    simp at this
  | some d =>
    have hd := List.find?_some h
    simp at hd
    exact congrArg some (key_inj w (List.mem_of_find?_eq_some h) hc hd)

theorem loadValue_some {ws : List Cls} {v : Text} {c : Cls} (h : loadValue ws v = some c) :
    c ∈ ws ∧ c.key = v := by
  unfold loadValue at h
  exact ⟨List.mem_of_find?_eq_some h, by simpa using List.find?_some h⟩

theorem importItem_dotted {ws : List Cls} (w : WorldOK ws) {c : Cls} (hc : c ∈ ws) :
    importItem ws c.dotted = some c := by
  unfold importItem
  cases h : ws.find? (fun d => d.dotted == c.dotted) with
  | none =>
    have := List.find?_eq_none.mp h c hc
    simp at this
  | some d =>
    have hd := List.find?_some h
    simp at hd
    exact congrArg some (dotted_inj w (List.mem_of_find?_eq_some h) hc hd)

theorem importItem_some {ws : List Cls} {s : Text} {c : Cls} (h : importItem ws s = some c) :
    c ∈ ws ∧ c.dotted = s := by
  unfold importItem at h
  exact ⟨List.mem_of_find?_eq_some h, by simpa using List.find?_some h⟩

theorem importItem_key {ws : List Cls} (w : WorldOK ws) (c : Cls) :
    importItem ws c.key = none := by
  cases h : importItem ws c.key with
  | none => rfl
  | some d =>
    obtain ⟨hd, he⟩ := importItem_some h
    exact absurd he (key_ne_dotted w hd c)

theorem lookup_none_iff (g : List Entry) (s : Text) :
    lookup g s = none ↔ ¬ IsRegisteredName g s := by
  unfold lookup IsRegisteredName
  rw [List.find?_eq_none]
  simp only [List.mem_reverse, beq_iff_eq]
  constructor
  · rintro h ⟨e, he, hn⟩
    exact h e he hn
  · intro h e he hn
    exact h ⟨e, he, hn⟩

theorem lookup_some {g : List Entry} {s : Text} {e : Entry} (h : lookup g s = some e) :
    e ∈ g ∧ lower e.name = lower s := by
  unfold lookup at h
  exact ⟨by simpa using List.mem_of_find?_eq_some h, by simpa using List.find?_some h⟩

theorem names_eq {g : List Entry} (hd : NamesDistinct g) {a b : Entry} (ha : a ∈ g)
    (hb : b ∈ g) (h : lower a.name = lower b.name) : a = b := by
  induction g with
  | nil => cases ha
  | cons x g ih =>
    unfold NamesDistinct at hd
    rw [List.pairwise_cons] at hd
    cases ha with
    | head =>
      cases hb with
      | head => rfl
      | tail _ hb => exact absurd h (hd.1 b hb)
    | tail _ ha =>
      cases hb with
      | head => exact absurd h.symm (hd.1 a ha)
      | tail _ hb => exact ih hd.2 ha hb

theorem lookup_eq {g : List Entry} (hd : NamesDistinct g) {s : Text} {e : Entry}
    (he : e ∈ g) (hn : lower e.name = lower s) : lookup g s = some e := by
  cases h : lookup g s with
  | none => exact absurd ⟨e, he, hn⟩ ((lookup_none_iff g s).mp h)
  | some e' =>
    obtain ⟨h1, h2⟩ := lookup_some h
    exact congrArg some (names_eq hd h1 he (h2.trans hn.symm))

theorem lookup_lower (g : List Entry) (s t : Text) (h : lower s = lower t) :
    lookup g s = lookup g t := by
  unfold lookup
  rw [h]

/-! ## What a value of the trait means -/

/-- An abbreviation, in any case, gives the class registered under it. -/
theorem abbreviation_class {ws : List Cls} (w : WorldOK ws) (r : Reg) (k : Kind)
    (hd : NamesDistinct (r.group k)) {c : Cls} (hc : c ∈ ws) (hl : c.isLauncher = true)
    {n : Text} (h : RegisteredAs (r.group k) c n) :
    validate ws r k (.str n) = .ok c ∧ findLauncherClass ws r n (some k) = .ok c := by
  obtain ⟨e, he, hn, hv⟩ := h
  have hk : e.value = c.key := hv
  unfold validate findLauncherClass
  simp only [lookup_eq hd he hn, hk, loadValue_key w hc, checkSubclass, hl, if_true]
  exact ⟨trivial, trivial⟩

/-- The full name of any launcher class gives that class, registered or not. -/
theorem full_name_class {ws : List Cls} (w : WorldOK ws) (r : Reg) (k : Kind) {c : Cls}
    (hc : c ∈ ws) (hl : c.isLauncher = true)
    (hn : ¬ IsRegisteredName (r.group k) (c.module ++ '.' :: c.name)) :
    validate ws r k (.str (c.module ++ '.' :: c.name)) = .ok c := by
  have h1 : lookup (r.group k) c.dotted = none := (lookup_none_iff _ _).mpr hn
  have h2 : importItem ws c.dotted = some c := importItem_dotted w hc
  show validate ws r k (.str c.dotted) = .ok c
  simp only [validate, h1, resolveString, h2, checkSubclass, hl, if_true]

/-- A class stands for itself; whatever is not a subclass of BaseLauncher is refused. -/
theorem class_itself (ws : List Cls) (r : Reg) (k : Kind) (c : Cls) :
    validate ws r k (.cls c) = if c.isLauncher then .ok c else .error .traitError := rfl

/-- Whatever the value was, the trait is afterwards a subclass of BaseLauncher; a string
gave it because it is registered under that name in the group of the trait, or because it
is the full name. -/
theorem validate_sound (ws : List Cls) (r : Reg) (k : Kind) (v : Val) (c : Cls)
    (h : validate ws r k v = .ok c) :
    c.isLauncher = true ∧
      (v = .cls c ∨
        ∃ s, v = .str s ∧ c ∈ ws ∧
          (RegisteredAs (r.group k) c s ∨
            (¬ IsRegisteredName (r.group k) s ∧ s = c.module ++ '.' :: c.name))) := by
  have hsub : ∀ d, checkSubclass d = .ok c → d = c ∧ c.isLauncher = true := by
    intro d hd
    unfold checkSubclass at hd
    by_cases hl : d.isLauncher = true
    · simp only [hl, if_true] at hd
      injection hd with hd
      exact ⟨hd, hd ▸ hl⟩
    · simp [hl] at hd
  cases v with
  | cls d =>
    obtain ⟨h1, h2⟩ := hsub d h
    exact ⟨h2, Or.inl (by rw [h1])⟩
  | str s =>
    unfold validate at h
    cases hlk : lookup (r.group k) s with
    | none =>
      simp only [hlk, resolveString] at h
      cases hi : importItem ws s with
      | none => simp [hi] at h
      | some d =>
        simp only [hi] at h
        obtain ⟨h1, h2⟩ := hsub d h
        subst h1
        obtain ⟨h3, h4⟩ := importItem_some hi
        exact ⟨h2, Or.inr ⟨s, rfl, h3, Or.inr ⟨(lookup_none_iff _ _).mp hlk, h4.symm⟩⟩⟩
    | some e =>
      simp only [hlk] at h
      cases hi : loadValue ws e.value with
      | none => simp [hi] at h
      | some d =>
        simp only [hi] at h
        obtain ⟨h1, h2⟩ := hsub d h
        subst h1
        obtain ⟨h3, h4⟩ := loadValue_some hi
        obtain ⟨h5, h6⟩ := lookup_some hlk
        exact ⟨h2, Or.inr ⟨s, rfl, h3, Or.inl ⟨e, h5, h6, h4.symm⟩⟩⟩

/-- Abbreviations are not case-sensitive, in either function. -/
theorem case_insensitive (ws : List Cls) (r : Reg) (k : Kind) (s t : Text)
    (h : lower s = lower t) (hr : IsRegisteredName (r.group k) s) :
    validate ws r k (.str s) = validate ws r k (.str t) ∧
      findLauncherClass ws r s (some k) = findLauncherClass ws r t (some k) := by
  have he := lookup_lower (r.group k) s t h
  cases hl : lookup (r.group k) t with
  | none =>
    rw [hl] at he
    exact absurd hr ((lookup_none_iff _ _).mp he)
  | some e =>
    rw [hl] at he
    unfold validate findLauncherClass
    simp only [he, hl]
    exact ⟨trivial, trivial⟩

/-- `find_launcher_class` refuses exactly the wrong kinds with ValueError, and exactly what
is not registered in the group with KeyError. -/
theorem find_errors (ws : List Cls) (r : Reg) (name : Text) (kind : Option Kind) :
    (findLauncherClass ws r name kind = .error .valueError ↔ kind = none) ∧
    (findLauncherClass ws r name kind = .error .keyError ↔
      ∃ k, kind = some k ∧ ¬ IsRegisteredName (r.group k) name) := by
  cases kind with
  | none => exact ⟨⟨fun _ => rfl, fun _ => rfl⟩, ⟨fun h => by simp [findLauncherClass] at h,
      fun ⟨k, hk, _⟩ => by cases hk⟩⟩
  | some k =>
    cases hl : lookup (r.group k) name with
    | none =>
      simp only [findLauncherClass, hl]
      refine ⟨⟨fun h => by simp at h, fun h => by simp at h⟩,
        ⟨fun _ => ⟨k, rfl, (lookup_none_iff _ _).mp hl⟩, fun _ => trivial⟩⟩
    | some e =>
      have hreg : IsRegisteredName (r.group k) name := by
        obtain ⟨h1, h2⟩ := lookup_some hl
        exact ⟨e, h1, h2⟩
      simp only [findLauncherClass, hl]
      cases hv : loadValue ws e.value with
      | none =>
        refine ⟨⟨fun h => by simp at h, fun h => by simp at h⟩,
          ⟨fun h => by simp at h, ?_⟩⟩
        rintro ⟨k', hk, hn⟩
        injection hk with hk
        subst hk
        exact absurd hreg hn
      | some c =>
        refine ⟨⟨fun h => by simp at h, fun h => by simp at h⟩,
          ⟨fun h => by simp at h, ?_⟩⟩
        rintro ⟨k', hk, hn⟩
        injection hk with hk
        subst hk
        exact absurd hreg hn

/-! ## Saving and loading -/

/-- The class is registered in the group of its kind, it has no name of its own, and every
name under which it is registered is a name of it in this group too. -/
structure RegisteredWell (r : Reg) (k : Kind) (c : Cls) : Prop where
  distinct : NamesDistinct (r.group k)
  noOwnName : c.entrypointName = []
  here : ∃ n, RegisteredAs (r.group k) c n
  same : ∀ k' n, RegisteredAs (r.group k') c n → RegisteredAs (r.group k) c n

/-- The abbreviation of a registered class is a name under which it is registered. -/
theorem abbreviate_registered (r : Reg) (k : Kind) (c : Cls) (h : RegisteredWell r k c) :
    RegisteredAs (r.group k) c (abbreviate r c) := by
  unfold abbreviate
  rw [if_neg (by simp [h.noOwnName])]
  cases hf : (r.controller ++ r.engine).find? (fun e => e.value == c.key) with
  | none =>
    obtain ⟨n, e, he, _, hv⟩ := h.here
    have hm : e ∈ r.controller ++ r.engine := by
      cases k with
      | controller => exact List.mem_append_left _ he
      | engine => exact List.mem_append_right _ he
    have := List.find?_eq_none.mp hf e hm
    have hv' : e.value = c.key := hv
    simp [hv'] at this
  | some e =>
    have hv : e.value = c.key := by simpa using List.find?_some hf
    have hm := List.mem_of_find?_eq_some hf
    show RegisteredAs (r.group k) c (lower e.name)
    rcases List.mem_append.mp hm with hm | hm
    · exact h.same .controller _ ⟨e, hm, (lower_idem _).symm, hv⟩
    · exact h.same .engine _ ⟨e, hm, (lower_idem _).symm, hv⟩

/-- A registered class is found again under its abbreviation, by the trait and by
`find_launcher_class`. -/
theorem reload_class {ws : List Cls} (w : WorldOK ws) (r : Reg) (k : Kind) {c : Cls}
    (hc : c ∈ ws) (hl : c.isLauncher = true) (h : RegisteredWell r k c) :
    validate ws r k (.str (abbreviate r c)) = .ok c ∧
      findLauncherClass ws r (abbreviate r c) (some k) = .ok c :=
  abbreviation_class w r k h.distinct hc hl (abbreviate_registered r k c h)

/-- A cluster saved and loaded has the launcher classes it had; a controller that does not
run is not in the file, and then the class of the controller is the default. -/
theorem reload_cluster_partial {ws : List Cls} (w : WorldOK ws) (r : Reg) (dflt : Cls) (st : St)
    (h1 : st.controller ∈ ws) (h2 : st.engine ∈ ws)
    (l1 : st.controller.isLauncher = true) (l2 : st.engine.isLauncher = true)
    (r1 : RegisteredWell r .controller st.controller)
    (r2 : RegisteredWell r .engine st.engine) :
    fromDict ws r dflt (toDict r st) =
      .ok { st with controller := if st.running then st.controller else dflt } := by
  have e2 := (reload_class w r .engine h2 l2 r2).1
  have e1 := (reload_class w r .controller h1 l1 r1).1
  obtain ⟨run, ctl, eng⟩ := st
  cases run with
  | true =>
    simp only [fromDict, toDict, if_true, bind, Except.bind, pure, Except.pure] at *
    rw [e1]
    simp only [e2]
    simp
  | false =>
    simp only [fromDict, toDict, bind, Except.bind, pure, Except.pure] at *
    simp [e2]

/-- The file of a loaded cluster says the same classes: loading does not write it again. -/
theorem saved_again {ws : List Cls} (w : WorldOK ws) (r : Reg) (dflt : Cls) (st : St)
    (h1 : st.controller ∈ ws) (h2 : st.engine ∈ ws)
    (l1 : st.controller.isLauncher = true) (l2 : st.engine.isLauncher = true)
    (r1 : RegisteredWell r .controller st.controller)
    (r2 : RegisteredWell r .engine st.engine) (st' : St)
    (h : fromDict ws r dflt (toDict r st) = .ok st') :
    toDict r st' = toDict r st := by
  rw [reload_cluster_partial w r dflt st h1 h2 l1 l2 r1 r2] at h
  injection h with h
  subst h
  obtain ⟨run, ctl, eng⟩ := st
  cases run <;> simp [toDict]

/-! ## The shipped classes -/

instance {α : Type} [DecidableEq α] : DecidableEq (Except Err α)
  | .ok a, .ok b => decidable_of_iff (a = b) (by simp)
  | .error a, .error b => decidable_of_iff (a = b) (by simp)
  | .ok _, .error _ => isFalse (by simp)
  | .error _, .ok _ => isFalse (by simp)

instance (g : List Entry) : Decidable (NamesDistinct g) := by
  unfold NamesDistinct
  infer_instance

theorem shipped_distinct (k : Kind) : NamesDistinct (shipped.group k) := by
  cases k <;> decide +kernel

theorem shipped_values :
    shipped.controller.all (fun e => shipped.engine.all (fun e' => e.value != e'.value))
      = true := by decide +kernel

/-- Every class that ipyparallel registers is registered well: it is found again. -/
theorem shipped_well (k : Kind) (c : Cls) (n : Text) (h0 : c.entrypointName = [])
    (h : RegisteredAs (shipped.group k) c n) : RegisteredWell shipped k c := by
  have hne : ∀ a ∈ shipped.controller, ∀ b ∈ shipped.engine, a.value ≠ b.value := by
    have := shipped_values
    simpa [List.all_eq_true] using this
  refine ⟨shipped_distinct k, h0, ⟨n, h⟩, ?_⟩
  obtain ⟨e, he, _, hv⟩ := h
  rintro k' n' ⟨e', he', hn', hv'⟩
  cases k <;> cases k'
  · exact ⟨e', he', hn', hv'⟩
  · exact absurd (hv.trans hv'.symm) (hne e he e' he')
  · exact absurd (hv'.trans hv.symm) (hne e' he' e he)
  · exact ⟨e', he', hn', hv'⟩

/-- With what ipyparallel installs, every registered class is found again. -/
theorem shipped_reload {ws : List Cls} (w : WorldOK ws) (k : Kind) {c : Cls} (n : Text)
    (hc : c ∈ ws) (hl : c.isLauncher = true) (h0 : c.entrypointName = [])
    (h : RegisteredAs (shipped.group k) c n) :
    validate ws shipped k (.str (abbreviate shipped c)) = .ok c ∧
      findLauncherClass ws shipped (abbreviate shipped c) (some k) = .ok c :=
  reload_class w shipped k hc hl (shipped_well k c n h0 h)

/-- A class of the shipped module. -/
def shippedCls (n : String) : Cls := { module := shippedModule, name := n.toList }

def slurmEngines : Cls := shippedCls "SlurmEngineSetLauncher"
def mpiController : Cls := shippedCls "MPIControllerLauncher"
def mpiEngines : Cls := shippedCls "MPIEngineSetLauncher"

/-- A custom launcher, as documented: a subclass in a module of the user. -/
def custom : Cls := { module := "my.launchers".toList, name := "MyEngines".toList }

/-- A subclass of a class with a name of its own. -/
def named : Cls :=
  { module := "lib".toList, name := "Base".toList, entrypointName := "base".toList }

def subNamed : Cls :=
  { module := "my".toList, name := "Sub".toList, entrypointName := "base".toList }

def exampleWorld : List Cls :=
  [slurmEngines, mpiController, mpiEngines, custom, named, subNamed,
    { module := "os".toList, name := "PathLike".toList, isLauncher := false }]

theorem example_world : WorldOK exampleWorld := by
  refine ⟨?_, ?_, ?_, ?_⟩ <;> decide +kernel

theorem slurm_registered : RegisteredAs (shipped.group .engine) slurmEngines "Slurm".toList :=
  ⟨shippedEntry "slurm" "SlurmEngineSetLauncher", by decide +kernel⟩

example : validate exampleWorld shipped .engine (.str "SLURM".toList) = .ok slurmEngines ∧
    abbreviate shipped slurmEngines = "slurm".toList ∧
    validate exampleWorld shipped .engine (.str "my.launchers.MyEngines".toList) = .ok custom ∧
    validate exampleWorld shipped .engine (.str "os.PathLike".toList) = .error .traitError := by
  decide +kernel

/-! ## What does not hold -/

/-- A launcher class that is not registered is accepted, by its full name or as a class; but
the cluster file says `module:Name`, which is neither registered nor can it be imported:
the cluster cannot be loaded from its file, so it cannot be reached or stopped later. -/
theorem unregistered_lost_violated {ws : List Cls} (w : WorldOK ws) (r : Reg) (dflt : Cls)
    (st : St) (h2 : st.engine ∈ ws) (l2 : st.engine.isLauncher = true)
    (hown : st.engine.entrypointName = [])
    (hun : ∀ k n, ¬ RegisteredAs (r.group k) st.engine n)
    (hkey : ¬ IsRegisteredName (r.group .engine) (st.engine.module ++ ':' :: st.engine.name)) :
    validate ws r .engine (.cls st.engine) = .ok st.engine ∧
      ∀ st', fromDict ws r dflt (toDict r st) ≠ .ok st' := by
  refine ⟨by simp [validate, checkSubclass, l2], ?_⟩
  have hab : abbreviate r st.engine = st.engine.key := by
    unfold abbreviate
    simp only [hown, ne_eq, not_true_eq_false, if_false]
    cases hf : (r.controller ++ r.engine).find? (fun e => e.value == st.engine.key) with
    | none => rfl
    | some e =>
      exfalso
      have hv : e.value = st.engine.key := by simpa using List.find?_some hf
      rcases List.mem_append.mp (List.mem_of_find?_eq_some hf) with hm | hm
      · exact hun .controller e.name ⟨e, hm, rfl, hv⟩
      · exact hun .engine e.name ⟨e, hm, rfl, hv⟩
  have hlk : lookup (r.group .engine) st.engine.key = none := (lookup_none_iff _ _).mpr hkey
  have hv : validate ws r .engine (.str (abbreviate r st.engine)) = .error .traitError := by
    simp only [hab, validate, hlk, resolveString, importItem_key w]
  intro st' h
  unfold fromDict at h
  have hd : (toDict r st).engine = abbreviate r st.engine := rfl
  rw [hd, hv] at h
  simp only [bind, Except.bind, pure, Except.pure] at h
  cases hc : (toDict r st).controller with
  | none => simp [hc] at h
  | some s =>
    simp only [hc] at h
    cases hvc : validate ws r .controller (.str s) <;> simp [hvc] at h

/-- The documented kind of custom class is such a class. -/
example : custom ∈ exampleWorld ∧ custom.entrypointName = [] ∧
    (∀ k n, ¬ RegisteredAs (shipped.group k) custom n) ∧
    ¬ IsRegisteredName (shipped.group .engine) (custom.module ++ ':' :: custom.name) := by
  refine ⟨by decide +kernel, rfl, ?_, ?_⟩
  · rintro k n ⟨e, he, _, hv⟩
    revert hv
    cases k
    · exact (by decide +kernel : ∀ e ∈ shipped.controller,
        ¬ e.value = custom.module ++ ':' :: custom.name) e he
    · exact (by decide +kernel : ∀ e ∈ shipped.engine,
        ¬ e.value = custom.module ++ ':' :: custom.name) e he
  · unfold IsRegisteredName
    decide +kernel

/-- `find_launcher_class` says that it takes "the full name of the launcher class, either
with or without the module path": it raises KeyError for both, for every class, unless a
class happens to be registered under such a name. -/
theorem find_full_name_violated (ws : List Cls) (k : Kind) (c : Cls)
    (h : ∃ n, RegisteredAs (shipped.group k) c n) :
    findLauncherClass ws shipped (c.module ++ '.' :: c.name) (some k) = .error .keyError ∧
      findLauncherClass ws shipped c.name (some k) = .error .keyError := by
  obtain ⟨n, e, he, _, hv⟩ := h
  have key : ∀ s, (∀ e' ∈ shipped.group k, lower e'.name ≠ lower s) →
      findLauncherClass ws shipped s (some k) = .error .keyError := by
    intro s hs
    rw [(find_errors ws shipped s (some k)).2]
    exact ⟨k, rfl, fun ⟨e', he', hn⟩ => hs e' he' hn⟩
  have hshape : ∀ e ∈ shipped.group k, e.value = c.module ++ ':' :: c.name →
      (∀ e' ∈ shipped.group k, e'.name.length < 9) ∧
      ∃ v, e.value = shippedModule ++ ':' :: v ∧ ':' ∉ v ∧ 15 ≤ v.length := by
    intro e he hval
    refine ⟨?_, e.value.drop 29, ?_⟩
    · cases k <;> decide +kernel
    · clear hval
      revert e
      cases k <;> decide +kernel
  obtain ⟨hshort, v, hv2, hnc, hlen⟩ := hshape e he hv
  have hlow : ∀ s : Text, (lower s).length = s.length := by
    intro s
    simp [lower]
  have hname : 15 ≤ c.name.length := by
    have heq : shippedModule ++ ':' :: v = c.module ++ ':' :: c.name := hv2.symm.trans hv
    have hm : ':' ∉ shippedModule := by decide +kernel
    by_cases hcm : ':' ∈ c.name
    · -- then the value would have two colons
      exfalso
      have hcount := congrArg (List.count ':') heq
      simp only [List.count_append, List.count_cons_self] at hcount
      have h1 : List.count ':' shippedModule = 0 := List.count_eq_zero.mpr hm
      have h2 : List.count ':' v = 0 := List.count_eq_zero.mpr hnc
      have h3 : 0 < List.count ':' c.name := List.count_pos_iff.mpr hcm
      omega
    · obtain ⟨_, hvn⟩ := split_last hnc hcm heq
      rw [← hvn]
      exact hlen
  constructor
  · refine key _ ?_
    intro e' he' hn
    have := hshort e' he'
    have h2 := congrArg List.length hn
    rw [hlow, hlow] at h2
    simp at h2
    omega
  · refine key _ ?_
    intro e' he' hn
    have := hshort e' he'
    have h2 := congrArg List.length hn
    rw [hlow, hlow] at h2
    omega

/-- The shipped registration and one more engine launcher. -/
def withEngine (n : String) (c : Cls) : Reg :=
  { shipped with engine := shipped.engine ++ [⟨n.toList, c.key⟩] }

/-- The custom class registered in both groups, under different names. -/
def twoNames : Reg :=
  { controller := shipped.controller ++ [⟨"myctl".toList, custom.key⟩]
    engine := shipped.engine ++ [⟨"myeng".toList, custom.key⟩] }

/-- A subclass of a class with an `entrypoint_name` is saved under the name of its base, and
loading gives the base. -/
theorem inherited_name_violated :
    validate exampleWorld (withEngine "base" named) .engine (.cls subNamed) = .ok subNamed ∧
      fromDict exampleWorld (withEngine "base" named) mpiController
        (toDict (withEngine "base" named) ⟨true, mpiController, subNamed⟩)
        = .ok ⟨true, mpiController, named⟩ := by
  decide +kernel

/-- A class registered as a controller launcher under one name and as an engine launcher
under another is saved under the first: an engine set of this class cannot be loaded. -/
theorem two_names_violated :
    validate exampleWorld twoNames .engine (.str "myeng".toList) = .ok custom ∧
      abbreviate twoNames custom = "myctl".toList ∧
      validate exampleWorld twoNames .engine (.str (abbreviate twoNames custom))
        = .error .traitError := by
  decide +kernel

/-- A third party that registers a class under a name of ipyparallel replaces it in new
clusters, and also when the file of a cluster with the shipped class is loaded. -/
theorem shadowed_violated :
    validate exampleWorld (withEngine "Slurm" custom) .engine (.cls slurmEngines)
        = .ok slurmEngines ∧
      validate exampleWorld (withEngine "Slurm" custom) .engine
        (.str (abbreviate (withEngine "Slurm" custom) slurmEngines)) = .ok custom := by
  decide +kernel

/-- A controller launcher is accepted as the launcher of the engines, and when the cluster is
loaded from its file it has become the engine launcher of the same abbreviation. -/
theorem wrong_group_violated :
    validate exampleWorld shipped .engine (.str mpiController.dotted) = .ok mpiController ∧
      fromDict exampleWorld shipped mpiController
          (toDict shipped ⟨false, mpiController, mpiController⟩)
        = .ok ⟨false, mpiController, mpiEngines⟩ := by
  decide +kernel

/-- A controller that is not running at the time is not in the file: the class chosen for it
is forgotten, and a controller started after loading is of the default class. -/
theorem controller_forgotten_violated {ws : List Cls} (w : WorldOK ws) (r : Reg) (dflt : Cls)
    (st : St) (h0 : st.running = false) (h2 : st.engine ∈ ws)
    (l2 : st.engine.isLauncher = true) (r2 : RegisteredWell r .engine st.engine) :
    fromDict ws r dflt (toDict r st) = .ok { st with controller := dflt } := by
  have e2 := (reload_class w r .engine h2 l2 r2).1
  obtain ⟨run, ctl, eng⟩ := st
  subst h0
  simp only [fromDict, toDict, bind, Except.bind, pure, Except.pure] at *
  simp [e2]

end IPP.Cluster.Classes
