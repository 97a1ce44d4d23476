import Verif.Cluster.Web
import Verif.Cluster.ManagerProps
/-!
# What the web service for clusters guarantees (C97)
-/
namespace IPP.Manager

/-! ### specification -/

/-- running clusters first, then those of the default profile, then those without an id, then by profile, then by id -/
structure Before (a b : Model) : Prop where
  running : b.running = true → a.running = true
  profile0 : a.running = b.running → b.profile = "default".toList → a.profile = "default".toList
  id0 : a.running = b.running → (a.profile = "default".toList ↔ b.profile = "default".toList) → b.clusterId = [] → a.clusterId = []
  profile : a.running = b.running → (a.profile = "default".toList ↔ b.profile = "default".toList) → (a.clusterId = [] ↔ b.clusterId = []) → a.profile ≤ b.profile
  id : a.running = b.running → a.profile = b.profile → (a.clusterId = [] ↔ b.clusterId = []) → a.clusterId ≤ b.clusterId

/-- the model tells this cluster -/
structure Describes (w : World) (m : Model) (k : Text) (o : Obj) : Prop where
  id : m.id = k
  profile : m.profile = abbr w.pre o.dir
  clusterId : m.clusterId = o.id
  running : m.running = true ↔ ∃ p, o.ctl = some p ∧ w.alive p = true
  n : m.n = ((o.sets.filter fun s => w.alive s.2).map (·.1)).sum
  file : m.file = o.file

/-- a body that the service can use: names are strings, numbers are integers; empty values count as missing -/
structure Body.Ok (b : Body) : Prop where
  profile : ∀ j, b.profile = some j → j = .null ∨ ∃ t, j = .str t
  clusterId : ∀ j, b.clusterId = some j → j = .null ∨ ∃ t, j = .str t
  n : ∀ j, b.n = some j → j = .null ∨ j = .str [] ∨ ∃ i, j = .int i

/-- the text of a field; `none`: missing or empty -/
def given : Option Json → Option Text
  | some (.str (x :: t)) => some (x :: t)
  | _ => none

/-- the directory that is meant: a path, the name of a profile, or the default -/
def Body.dir (c : Conf) (b : Body) : Text := match given b.profile with
  | none => c.dflt
  | some p => if '/' ∈ p then p else c.pre ++ p

/-- the id that is meant: the one given, else none if the profile is named and has no cluster without id, else a random one -/
def Body.id (b : Body) (s : Srv) (rnd : Text) : Text := match given b.clusterId with
  | some i => i
  | none => match given b.profile with
    | none => rnd
    | some p => if '/' ∈ p then rnd else if getCluster s.m (p ++ [':']) = none then [] else rnd

/-! ### proofs: the order -/

theorem bstep_trans {f : Model → Bool} {r : Model → Model → Bool} (hr : ∀ a b c, r a b = true → r b c = true → r a c = true) :
    ∀ a b c, (if f a ≠ f b then f a else r a b) = true → (if f b ≠ f c then f b else r b c) = true → (if f a ≠ f c then f a else r a c) = true := by
  intro a b c
  cases f a <;> cases f b <;> cases f c <;> simp
  all_goals exact hr a b c

theorem bstep_total {f : Model → Bool} {r : Model → Model → Bool} (hr : ∀ a b, (r a b || r b a) = true) :
    ∀ a b, ((if f a ≠ f b then f a else r a b) || (if f b ≠ f a then f b else r b a)) = true := by
  intro a b
  have := hr a b
  cases f a <;> cases f b <;> simp_all

/-- profile, then id -/
def tailLe (a b : Model) : Bool := if a.profile ≠ b.profile then a.profile < b.profile else a.clusterId ≤ b.clusterId

theorem tail_trans : ∀ a b c, tailLe a b = true → tailLe b c = true → tailLe a c = true := by
  intro a b c h1 h2
  unfold tailLe at *
  by_cases e1 : a.profile = b.profile
  · by_cases e2 : b.profile = c.profile
    · rw [if_neg (by simp [e1])] at h1
      rw [if_neg (by simp [e2])] at h2
      rw [if_neg (by simp [e1, e2])]
      simp only [decide_eq_true_eq] at *
      exact List.le_trans h1 h2
    · rw [if_pos e2] at h2
      rw [e1, if_pos e2]; exact h2
  · rw [if_pos e1] at h1
    by_cases e2 : b.profile = c.profile
    · rw [← e2, if_pos e1]; exact h1
    · rw [if_pos e2] at h2
      simp only [decide_eq_true_eq] at h1 h2
      have h3 := List.lt_trans h1 h2
      have : a.profile ≠ c.profile := by intro h; rw [h] at h3; exact List.lt_irrefl _ h3
      rw [if_pos this]
      simpa using h3

theorem tail_total : ∀ a b, (tailLe a b || tailLe b a) = true := by
  intro a b
  unfold tailLe
  by_cases e : a.profile = b.profile
  · simp only [e, ne_eq, not_true_eq_false, if_false, Bool.or_eq_true, decide_eq_true_eq]
    exact List.le_total _ _
  · have e' : b.profile ≠ a.profile := fun h => e h.symm
    rw [if_pos e, if_pos e']
    simp only [Bool.or_eq_true, decide_eq_true_eq]
    rcases Classical.em (a.profile < b.profile) with h | h
    · exact .inl h
    · refine .inr (Classical.byContradiction fun h' => e (List.le_antisymm (List.not_lt.1 h') (List.not_lt.1 h)))

theorem le_trans' : ∀ a b c, Model.le a b = true → Model.le b c = true → Model.le a c = true := bstep_trans (bstep_trans (bstep_trans tail_trans))
theorem le_total' : ∀ a b, (Model.le a b || Model.le b a) = true := bstep_total (bstep_total (bstep_total tail_total))

theorem le_before {a b : Model} (h : Model.le a b = true) : Before a b := by
  unfold Model.le at h
  have hd : ∀ m : Model, m.isDefault = true ↔ m.profile = "default".toList := fun m => by simp [Model.isDefault]
  have hn : ∀ m : Model, m.noId = true ↔ m.clusterId = [] := fun m => by simp [Model.noId]
  have hdb : (a.profile = "default".toList ↔ b.profile = "default".toList) ↔ a.isDefault = b.isDefault := by rw [← hd a, ← hd b]; exact Bool.eq_iff_iff.symm
  have hnb : (a.clusterId = [] ↔ b.clusterId = []) ↔ a.noId = b.noId := by rw [← hn a, ← hn b]; exact Bool.eq_iff_iff.symm
  constructor
  · intro hb
    by_cases e : a.running = b.running
    · rw [e, hb]
    · rw [if_pos e] at h; exact h
  · intro e hb
    rw [if_neg (by simp [e])] at h
    rw [← hd] at hb ⊢
    by_cases e2 : a.isDefault = b.isDefault
    · rw [e2, hb]
    · rw [if_pos e2] at h; exact h
  · intro e e2 hb
    rw [hdb] at e2
    rw [if_neg (by simp [e]), if_neg (by simp [e2])] at h
    rw [← hn] at hb ⊢
    by_cases e3 : a.noId = b.noId
    · rw [e3, hb]
    · rw [if_pos e3] at h; exact h
  · intro e e2 e3
    rw [hdb] at e2
    rw [hnb] at e3
    rw [if_neg (by simp [e]), if_neg (by simp [e2]), if_neg (by simp [e3])] at h
    by_cases e4 : a.profile = b.profile
    · rw [e4]; exact List.le_refl _
    · rw [if_pos e4] at h; exact List.le_of_lt (by simpa using h)
  · intro e e4 e3
    have e2 : a.isDefault = b.isDefault := by unfold Model.isDefault; rw [e4]
    rw [hnb] at e3
    rw [if_neg (by simp [e]), if_neg (by simp [e2]), if_neg (by simp [e3]), if_neg (by simp [e4])] at h
    simpa using h

theorem insert_perm (a : Model) (l : List Model) : (insertBy a l).Perm (a :: l) := by
  induction l with
  | nil => exact .refl _
  | cons b l ih =>
    simp only [insertBy]
    split
    · exact .refl _
    · exact (ih.cons b).trans (.swap a b l)

theorem sorted_perm (l : List Model) : (sorted l).Perm l := by
  induction l with
  | nil => exact .refl _
  | cons a l ih => exact (insert_perm a _).trans (ih.cons a)

theorem insert_pairwise (a : Model) (l : List Model) (h : l.Pairwise fun x y => Model.le x y = true) : (insertBy a l).Pairwise fun x y => Model.le x y = true := by
  induction l with
  | nil => simp [insertBy]
  | cons b l ih =>
    rw [List.pairwise_cons] at h
    simp only [insertBy]
    split
    · rename_i hab
      refine List.pairwise_cons.2 ⟨fun x hx => ?_, List.pairwise_cons.2 h⟩
      rcases List.mem_cons.1 hx with rfl | hx
      · exact hab
      · exact le_trans' _ _ _ hab (h.1 x hx)
    · rename_i hab
      have hba : Model.le b a = true := by
        have := le_total' a b
        simp only [Bool.or_eq_true] at this
        exact this.resolve_left hab
      refine List.pairwise_cons.2 ⟨fun x hx => ?_, ih h.2⟩
      rcases List.mem_cons.1 ((insert_perm a l).mem_iff.1 hx) with rfl | hx
      · exact hba
      · exact h.1 x hx

theorem sorted_pairwise (l : List Model) : (sorted l).Pairwise fun x y => Model.le x y = true := by
  induction l with
  | nil => exact .nil
  | cons a l ih => exact insert_pairwise a _ ih

theorem model_describes (w : World) (k : Text) (o : Obj) : Describes w (model w k o) k o :=
  ⟨rfl, rfl, rfl, by cases h : o.ctl <;> simp [model, h], rfl, rfl⟩

/-! ### listing -/

/-- **C97 (listing)** The answer has exactly one entry for every cluster that the manager then has, and it describes it. -/
theorem list_exact (c : Conf) (s : Srv) (dirs : List Text) : ∃ l, (getList c s dirs).2 = .list l ∧ (l.map (·.id)).Perm ((getList c s dirs).1.m.clusters.map (·.1)) ∧
    ∀ m, m ∈ l ↔ ∃ k o, (k, o) ∈ (getList c s dirs).1.m.clusters ∧ m = model (s.w c) k o := by
  refine ⟨_, rfl, ?_, fun m => ?_⟩
  · refine ((sorted_perm _).map _).trans ?_
    rw [List.map_map]
    exact List.Perm.of_eq (List.map_congr_left fun e _ => rfl)
  · rw [(sorted_perm _).mem_iff, List.mem_map]
    constructor
    · rintro ⟨⟨k, o⟩, h, rfl⟩; exact ⟨k, o, h, rfl⟩
    · rintro ⟨k, o, h, rfl⟩; exact ⟨(k, o), h, rfl⟩

/-- **C97 (order)** Running clusters come first, then the default profile, then clusters without an id, then by name. -/
theorem list_sorted (c : Conf) (s : Srv) (dirs : List Text) (l : List Model) (h : (getList c s dirs).2 = .list l) : l.Pairwise Before := by
  cases h
  exact (sorted_pairwise _).imp le_before

/-- **C97 (reading)** An entry that was listed can be read under its id. -/
theorem listed_readable (c : Conf) (s : Srv) (hu : Usual (s.w c) s.m) (dirs : List Text) (hd : DirsOk (s.w c) dirs) (l : List Model) (h : (getList c s dirs).2 = .list l) (m : Model) (hm : m ∈ l) :
    getOne c (getList c s dirs).1 m.id = .one m := by
  obtain ⟨l', h1, -, h3⟩ := list_exact c s dirs
  rw [h] at h1
  cases h1
  obtain ⟨k, o, ho, rfl⟩ := (h3 m).1 hm
  have := get_of_mem (load_usual hu dirs hd true).keys ho
  show getOne c _ k = _
  unfold getOne
  rw [show getCluster (getList c s dirs).1.m k = some o from this]
  rfl

/-- **C97 (complete)** Every cluster file that can be read, in a profile directory, is listed, and every cluster that the manager had and that runs or was never started. -/
theorem list_complete (c : Conf) (s : Srv) (hu : Usual (s.w c) s.m) (dirs : List Text) (hd : DirsOk (s.w c) dirs) (l : List Model) (h : (getList c s dirs).2 = .list l) :
    (∀ p r, (p, some r) ∈ s.m.disk → p.dir ∈ dirs → ∃ m ∈ l, m.id = key c.pre r.dir r.id ∧ m.file = p ∧ m.clusterId = r.id) ∧
    (∀ k o, getCluster s.m k = some o → (o.running (s.w c) = true ∨ o.ctl = none) → ∃ m ∈ l, Describes (s.w c) m k o) := by
  obtain ⟨l', h1, -, h3⟩ := list_exact c s dirs
  rw [h] at h1
  cases h1
  constructor
  · intro p r hp hdir
    obtain ⟨o, ho, h4, h5, h6⟩ := load_lists hu dirs hd true p r hp hdir
    refine ⟨_, (h3 _).2 ⟨_, o, mem_of_get ho, rfl⟩, rfl, h4, h6⟩
  · intro k o hk ho
    exact ⟨_, (h3 _).2 ⟨k, o, mem_of_get (load_keeps hu dirs hd true k o hk ho), rfl⟩, model_describes _ k o⟩

/-- **C97 (nothing else)** What is listed was known and is not a cluster that has ended, or is the stopped cluster without id of a profile directory, or stands in a cluster file; it is shown as running only if its controller is alive. -/
theorem list_only (c : Conf) (s : Srv) (hu : Usual (s.w c) s.m) (dirs : List Text) (hd : DirsOk (s.w c) dirs) (l : List Model) (h : (getList c s dirs).2 = .list l) (m : Model) (hm : m ∈ l) :
    ∃ o, Describes (s.w c) m m.id o ∧ ((getCluster s.m m.id = some o ∧ (o.running (s.w c) = true ∨ o.ctl = none)) ∨
      (o.dir ∈ dirs ∧ o.id = [] ∧ m.running = false) ∨ ∃ r, (o.file, some r) ∈ s.m.disk ∧ o.dir = r.dir ∧ o.id = r.id ∧ o.dir ∈ dirs) := by
  obtain ⟨l', h1, -, h3⟩ := list_exact c s dirs
  rw [h] at h1
  cases h1
  obtain ⟨k, o, ho, rfl⟩ := (h3 m).1 hm
  refine ⟨o, model_describes _ k o, ?_⟩
  rcases load_only hu dirs hd true k o (get_of_mem (load_usual hu dirs hd true).keys ho) with h4 | ⟨-, -, h5, h6, h7⟩ | ⟨-, r, h5, h6, h7, h8, -⟩
  · exact .inl h4
  · refine .inr (.inl ⟨h5, h6, ?_⟩)
    unfold Obj.running at h7
    simp only [Bool.or_eq_false_iff] at h7
    cases hc : o.ctl with
    | none => simp [model, hc]
    | some p => rw [hc] at h7; simpa [model, hc] using h7.1
  · exact .inr (.inr ⟨r, h5, h7, h8, h6⟩)

/-- **C97 (unknown)** For a key that is not known every request is answered by 404, and nothing changes. -/
theorem unknown_404 (c : Conf) (s : Srv) (k : Text) (h : getCluster s.m k = none) (n : Option Json) (dn p q r : Nat) :
    getOne c s k = .notFound ∧ start c s k n dn p q = (s, .notFound) ∧ deleteBegin s r k = (s, some .notFound) := by
  simp [getOne, start, deleteBegin, h]

/-- **C97 (known)** Otherwise reading answers with the cluster. -/
theorem known_read (c : Conf) (s : Srv) (k : Text) (o : Obj) (h : getCluster s.m k = some o) : ∃ m, getOne c s k = .one m ∧ Describes (s.w c) m k o :=
  ⟨_, by simp only [getOne, h], model_describes _ k o⟩

/-! ### creating -/

theorem clear_given (j : Option Json) (h : ∀ x, j = some x → x = .null ∨ ∃ t, x = .str t) : clear j = some ((given j).map .str) := by
  cases j with
  | none => rfl
  | some x =>
    rcases h x rfl with rfl | ⟨t, rfl⟩
    · rfl
    · cases t <;> rfl

theorem clear_n (j : Option Json) (h : ∀ x, j = some x → x = .null ∨ x = .str [] ∨ ∃ i, x = .int i) : clear j = some none ∨ ∃ i, clear j = some (some (.int i)) := by
  cases j with
  | none => exact .inl rfl
  | some x =>
    rcases h x rfl with rfl | rfl | ⟨i, rfl⟩
    · exact .inl rfl
    · exact .inl rfl
    · exact .inr ⟨i, rfl⟩

theorem make_ok (c : Conf) (s : Srv) (dir : Text) (i : Option Text) (n : Option Json) (hn : n = none ∨ ∃ x, n = some (.int x)) (rnd : Text) :
    create.make c s dir (i.map .str) n rnd = match newCluster (s.w c) dir (i.getD rnd) s.m with
      | none => (s, .serverError)
      | some (k, m) => match getCluster m k with
        | some o => ({ s with m := m }, .one (model (s.w c) k o))
        | none => (s, .serverError) := by
  cases i <;> rcases hn with rfl | ⟨x, rfl⟩ <;> rfl

theorem create_ok (c : Conf) (s : Srv) (b : Body) (hb : b.Ok) (rnd : Text) :
    create c s b rnd = match newCluster (s.w c) (b.dir c) (b.id s rnd) s.m with
      | none => (s, .serverError)
      | some (k, m) => match getCluster m k with
        | some o => ({ s with m := m }, .one (model (s.w c) k o))
        | none => (s, .serverError) := by
  have h1 := clear_given b.profile hb.profile
  have h2 := clear_given b.clusterId hb.clusterId
  obtain ⟨n, h3, h4⟩ : ∃ n, clear b.n = some n ∧ (n = none ∨ ∃ x, n = some (.int x)) := by
    rcases clear_n b.n hb.n with h | ⟨i, h⟩
    · exact ⟨_, h, .inl rfl⟩
    · exact ⟨_, h, .inr ⟨i, rfl⟩⟩
  unfold create
  rw [h1, h2, h3]
  unfold Body.dir Body.id
  cases hp : given b.profile with
  | none =>
    simp only [Option.map_none]
    rw [make_ok c s _ _ n h4]
    cases given b.clusterId <;> rfl
  | some p =>
    simp only [Option.map_some]
    by_cases hs : '/' ∈ p
    · simp only [hs, if_true]
      rw [make_ok c s _ _ n h4]
      cases given b.clusterId <;> rfl
    · simp only [hs, if_false]
      cases hi : given b.clusterId with
      | some i => exact make_ok c s _ (some i) n h4 rnd
      | none =>
        simp only [Option.map_none]
        cases hg : getCluster s.m (p ++ [':']) with
        | none => exact make_ok c s _ (some []) n h4 rnd
        | some o => exact make_ok c s _ none n h4 rnd

theorem clear_bad {j : Option Json} (h : ¬ ∀ x, j = some x → x = .null ∨ ∃ t, x = .str t) : clear j = none ∨ (∃ i, clear j = some (some (.int i))) ∨ clear j = some (some .number) := by
  cases j with
  | none => exact absurd (fun x hx => by cases hx) h
  | some x =>
    cases x with
    | null => exact absurd (fun x hx => by cases hx; exact .inl rfl) h
    | str t => exact absurd (fun x hx => by cases hx; exact .inr ⟨t, rfl⟩) h
    | int i => exact .inr (.inl ⟨i, rfl⟩)
    | tree => exact .inl rfl
    | number => exact .inr (.inr rfl)

theorem clear_badn {j : Option Json} (h : ¬ ∀ x, j = some x → x = .null ∨ x = .str [] ∨ ∃ i, x = .int i) : clear j = none ∨ (∃ x t, clear j = some (some (.str (x :: t)))) ∨ clear j = some (some .number) := by
  cases j with
  | none => exact absurd (fun x hx => by cases hx) h
  | some x =>
    cases x with
    | null => exact absurd (fun x hx => by cases hx; exact .inl rfl) h
    | str t =>
      cases t with
      | nil => exact absurd (fun x hx => by cases hx; exact .inr (.inl rfl)) h
      | cons a t => exact .inr (.inl ⟨a, t, rfl⟩)
    | int i => exact absurd (fun x hx => by cases hx; exact .inr (.inr ⟨i, rfl⟩)) h
    | tree => exact .inl rfl
    | number => exact .inr (.inr rfl)

theorem make_bad_id (c : Conf) (s : Srv) (dir : Text) (n : Option Json) (rnd : Text) (i : Json) (h : (∃ x, i = .int x) ∨ i = .number) : create.make c s dir (some i) n rnd = (s, .serverError) := by
  rcases h with ⟨x, rfl⟩ | rfl <;> rfl

theorem make_bad_n (c : Conf) (s : Srv) (dir : Text) (i : Option Json) (rnd : Text) (n : Json) (h : (∃ x, n = .str x) ∨ n = .number) : create.make c s dir i (some n) rnd = (s, .serverError) := by
  rcases h with ⟨x, rfl⟩ | rfl <;> rcases i with _ | ⟨_ | _ | _ | _ | _⟩ <;> rfl

/-- **C97 (creating)** A usable request creates a cluster in the directory and with the id that are meant, under a key that was not in use, and answers with its description; nothing else changes. It fails, and changes nothing,
exactly if there is one already. -/
theorem create_exact (c : Conf) (s : Srv) (b : Body) (hb : b.Ok) (rnd : Text) :
    let k := key c.pre (c.abs (b.dir c)) (b.id s rnd)
    (getCluster s.m k ≠ none → create c s b rnd = (s, .serverError)) ∧
    (getCluster s.m k = none → ∃ s' o m, create c s b rnd = (s', .one m) ∧ Describes (s.w c) m k o ∧ getCluster s'.m k = some o ∧ o.dir = c.abs (b.dir c) ∧ o.id = b.id s rnd ∧ o.running (s.w c) = false ∧
      (∀ k', k' ≠ k → getCluster s'.m k' = getCluster s.m k') ∧ s'.m.disk = s.m.disk ∧ s'.alive = s.alive ∧ s'.jobs = s.jobs) := by
  intro k
  obtain ⟨h1, h2⟩ := new_adds (w := s.w c) (s := s.m) (b.dir c) (b.id s rnd)
  rw [create_ok c s b hb rnd]
  refine ⟨fun h => by rw [h1 h], fun h => ?_⟩
  obtain ⟨m', hm, ⟨o, ho, h3, h4, h5, -⟩, h6, h7, -⟩ := h2 h
  rw [hm]
  dsimp only
  rw [ho]
  exact ⟨_, o, _, rfl, model_describes _ k o, ho, h3, h4, h5, h6, h7, rfl, rfl⟩

/-- **C97 (creating)** A request that is not usable changes nothing. -/
theorem create_refused (c : Conf) (s : Srv) (b : Body) (hb : ¬ b.Ok) (rnd : Text) : create c s b rnd = (s, .serverError) := by
  have : ¬ (∀ j, b.profile = some j → j = .null ∨ ∃ t, j = .str t) ∨ (∀ j, b.profile = some j → j = .null ∨ ∃ t, j = .str t) ∧ ¬ (∀ j, b.clusterId = some j → j = .null ∨ ∃ t, j = .str t) ∨
      (∀ j, b.profile = some j → j = .null ∨ ∃ t, j = .str t) ∧ (∀ j, b.clusterId = some j → j = .null ∨ ∃ t, j = .str t) ∧ ¬ (∀ j, b.n = some j → j = .null ∨ j = .str [] ∨ ∃ i, j = .int i) := by
    refine Classical.byContradiction fun h => ?_
    simp only [not_or, not_and, Classical.not_not] at h
    exact hb ⟨h.1, h.2.1 h.1, h.2.2 h.1 (h.2.1 h.1)⟩
  unfold create
  rcases this with h | ⟨hp, h⟩ | ⟨hp, hi, h⟩
  · rcases clear_bad h with h | ⟨i, h⟩ | h
    · rw [h]
    · rw [h]; cases clear b.clusterId <;> cases clear b.n <;> rfl
    · rw [h]; cases clear b.clusterId <;> cases clear b.n <;> rfl
  · rw [clear_given _ hp]
    cases hn : clear b.n with
    | none => cases clear b.clusterId <;> rfl
    | some n =>
      rcases clear_bad h with h | ⟨i, h⟩ | h <;> rw [h]
      · cases given b.profile with
        | none => exact make_bad_id c s _ n rnd _ (.inl ⟨i, rfl⟩)
        | some p =>
          simp only [Option.map_some]
          split <;> exact make_bad_id c s _ n rnd _ (.inl ⟨i, rfl⟩)
      · cases given b.profile with
        | none => exact make_bad_id c s _ n rnd _ (.inr rfl)
        | some p =>
          simp only [Option.map_some]
          split <;> exact make_bad_id c s _ n rnd _ (.inr rfl)
  · rw [clear_given _ hp, clear_given _ hi]
    rcases clear_badn h with h | ⟨x, t, h⟩ | h <;> rw [h]
    · cases given b.profile with
      | none => exact make_bad_n c s _ _ rnd _ (.inl ⟨_, rfl⟩)
      | some p =>
        simp only [Option.map_some]
        split <;> exact make_bad_n c s _ _ rnd _ (.inl ⟨_, rfl⟩)
    · cases given b.profile with
      | none => exact make_bad_n c s _ _ rnd _ (.inr rfl)
      | some p =>
        simp only [Option.map_some]
        split <;> exact make_bad_n c s _ _ rnd _ (.inr rfl)

end IPP.Manager
