import Verif.Shell.Arrive
/-!
# C82: what comes back; the commands from end to end; recognising the remote shell
-/
namespace IPP.Shell

namespace Spec

/-- what the shell prints before: nothing, or whole lines -/
def WholeLines (pre : Str) : Prop := pre = [] ∨ ∃ a, pre = a ++ [10]

/-- `t` occurs in `s` -/
def Occurs (t s : Str) : Prop := ∃ a b, s = a ++ t ++ b

/-- changes of the environment: a value sets the variable, `None` and the empty string remove it, other variables are inherited -/
def environ (base : Str → Option Str) (changes : List (Str × J)) (k : Str) : Option Str :=
  match changes.find? (fun kv => kv.1 = k) with
  | none => base k
  | some (_, .null) => none
  | some (_, .str []) => none
  | some (_, v) => strOf v

/-- values an environment variable can have -/
def EnvValue : J → Prop
  | .null | .str _ | .num _ | .bool _ => True
  | .arr _ | .obj _ => False

end Spec

/-! ## findall -/

theorem takeWhile_nl (p : Nat → Bool) (hp : p 10 = false) (a b : Str) : (a ++ 10 :: b).takeWhile p = a.takeWhile p ∧ (a ++ 10 :: b).dropWhile p = a.dropWhile p ++ 10 :: b := by
  induction a with
  | nil => simp [hp]
  | cons c a ih => by_cases h : p c = true <;> simp [h, ih.1, ih.2]

theorem matchAt_append (a b : Str) (ha : a ≠ []) : matchAt (a ++ 10 :: b) = (matchAt a).map fun (kv, r) => (kv, r ++ 10 :: b) := by
  match a, ha with
  | [x], _ =>
    cases b with
    | nil => simp [matchAt]
    | cons y b =>
      by_cases hx : x = 95
      · subst hx; simp [matchAt]
      · simp [matchAt, hx]
  | [x, y], _ =>
    by_cases hx : x = 95
    · by_cases hy : y = 95
      · subst hx hy
        simp [matchAt, isAlpha]
      · simp [matchAt, hy]
    · simp [matchAt, hx]
  | x :: y :: c :: t, _ =>
    by_cases hx : x = 95
    · by_cases hy : y = 95
      · subst hx hy
        simp only [List.cons_append, matchAt]
        split
        · obtain ⟨h1, h2⟩ := takeWhile_nl isKeyChar (by decide) t b
          rw [h1, h2]
          cases hk : t.takeWhile isKeyChar with
          | nil => simp
          | cons k ks =>
            cases hd : t.dropWhile isKeyChar with
            | nil => simp
            | cons q u =>
              by_cases hq : q = 61
              · subst hq
                simp only [List.cons_append]
                obtain ⟨h3, h4⟩ := takeWhile_nl isValChar (by decide) u b
                rw [h3, h4]
                cases hv : u.takeWhile isValChar with
                | nil => simp
                | cons v vs =>
                  match u.dropWhile isValChar with
                  | [] => simp
                  | [z] => by_cases hz : z = 95 <;> simp [hz]
                  | z :: z2 :: r =>
                    by_cases hz : z = 95
                    · by_cases hz2 : z2 = 95
                      · subst hz hz2; simp
                      · simp [hz, hz2]
                    · simp [hz]
              · simp [hq]
        · rfl
      · simp [matchAt, hy]
    · simp [matchAt, hx]

theorem matchAt_shorter {s : Str} {kv : Str × Str} {r : Str} (h : matchAt s = some (kv, r)) : r.length < s.length := by
  unfold matchAt at h
  split at h
  · rename_i c t
    split at h
    · split at h
      · rename_i k ks u hk hd
        split at h
        · rename_i v vs rest hv hd2
          simp only [Option.some.injEq, Prod.mk.injEq] at h
          obtain ⟨-, rfl⟩ := h
          have l1 := (List.dropWhile_suffix (l := t) isKeyChar).length_le
          have l2 := (List.dropWhile_suffix (l := u) isValChar).length_le
          rw [hd] at l1
          rw [hd2] at l2
          simp only [List.length_cons] at l1 l2 ⊢
          omega
        · cases h
      · cases h
    · cases h
  · cases h

theorem findallAux_fuel (n m : Nat) (s : Str) (hn : s.length ≤ n) (hm : s.length ≤ m) : findallAux n s = findallAux m s := by
  induction n generalizing m s with
  | zero =>
    have : s = [] := List.eq_nil_of_length_eq_zero (by omega)
    subst this
    cases m <;> rfl
  | succ n ih =>
    cases s with
    | nil => cases m <;> rfl
    | cons c t =>
      cases m with
      | zero => simp at hm
      | succ m =>
        simp only [findallAux]
        cases h : matchAt (c :: t) with
        | none => exact ih m t (by simpa using hn) (by simpa using hm)
        | some x =>
          obtain ⟨kv, r⟩ := x
          have := matchAt_shorter h
          simp only [List.length_cons] at this hn hm
          simp only
          rw [ih m r (by omega) (by omega)]

theorem findall_cons (c : Nat) (t : Str) : findall (c :: t) = match matchAt (c :: t) with
    | some (kv, rest) => kv :: findall rest
    | none => findall t := by
  unfold findall
  simp only [List.length_cons, findallAux]
  cases h : matchAt (c :: t) with
  | none => rfl
  | some x =>
    obtain ⟨kv, r⟩ := x
    have := matchAt_shorter h
    simp only [List.length_cons] at this
    simp only
    rw [findallAux_fuel t.length r.length r (by omega) (Nat.le_refl _)]

/-- matches do not reach over the end of a line -/
theorem findall_line (a b : Str) : findall (a ++ 10 :: b) = findall a ++ findall b := by
  suffices ∀ n, ∀ a : Str, a.length ≤ n → findall (a ++ 10 :: b) = findall a ++ findall b from this a.length a (Nat.le_refl _)
  intro n
  induction n with
  | zero =>
    intro a ha
    have : a = [] := List.eq_nil_of_length_eq_zero (by omega)
    subst this
    simp only [List.nil_append]
    rw [findall_cons]
    have : matchAt (10 :: b) = none := by simp [matchAt]
    rw [this]; rfl
  | succ n ih =>
    intro a ha
    cases a with
    | nil => exact ih [] (by simp)
    | cons c t =>
      have hm := matchAt_append (c :: t) b (by simp)
      simp only [List.cons_append] at hm ⊢
      rw [findall_cons, findall_cons, hm]
      cases h : matchAt (c :: t) with
      | none => simp only [Option.map_none]; exact ih t (by simpa using ha)
      | some x =>
        obtain ⟨kv, r⟩ := x
        have := matchAt_shorter h
        simp only [List.length_cons] at this ha
        simp only [Option.map_some]
        rw [ih r (by omega)]; rfl

theorem takeWhile_append_nl (p : Nat → Bool) (a b : Str) (ha : ∀ c ∈ a, p c = true) (hb : ∀ c t, b = c :: t → p c = false) : (a ++ b).takeWhile p = a ∧ (a ++ b).dropWhile p = b := by
  induction a with
  | nil =>
    cases b with
    | nil => simp
    | cons c t => simp [hb c t rfl]
  | cons c a ih =>
    have h1 := ha c (by simp)
    have h2 := ih (fun x hx => ha x (by simp [hx]))
    simp [h1, h2.1, h2.2]

theorem dec_ne_nil (n : Nat) : dec n ≠ [] := by
  rw [dec]
  split <;> simp

theorem findall_pid (pid : Nat) : findall (l!"__remote_pid=" ++ dec pid ++ l!"__") = [(l!"remote_pid", dec pid)] := by
  have h1 : l!"__remote_pid=" ++ dec pid ++ l!"__" = 95 :: 95 :: 114 :: (l!"emote_pid" ++ 61 :: (dec pid ++ l!"__")) := by simp
  have h2 := takeWhile_append_nl isKeyChar l!"emote_pid" (61 :: (dec pid ++ l!"__")) (by decide) (by intro c t h; cases h; decide)
  have h3 := takeWhile_append_nl isValChar (dec pid) l!"__" (by
    intro c hc
    have := isDigit_dec pid c hc
    simp [isValChar, this]) (by intro c t h; cases h; decide)
  have hm : matchAt (95 :: 95 :: 114 :: (l!"emote_pid" ++ 61 :: (dec pid ++ l!"__"))) = some ((l!"remote_pid", dec pid), []) := by
    simp only [matchAt]
    rw [if_pos (by decide), h2.1, h2.2]
    simp only
    rw [h3.1, h3.2]
    cases hd : dec pid with
    | nil => exact absurd hd (dec_ne_nil pid)
    | cons v vs => rfl
  rw [h1, findall_cons, hm]
  rfl

/-- **C82 (the pid).** Whatever lines the remote shell prints before and after, the pid read from the output is the one that was printed — unless the shell itself prints a line with a later `__remote_pid=…__`. -/
theorem pid_read (pre post : Str) (pid : Nat) (hpre : Spec.WholeLines pre) (hpost : ∀ kv ∈ findall post, kv.1 ≠ l!"remote_pid") :
    getPid (pre ++ (l!"__remote_pid=" ++ dec pid ++ l!"__\n") ++ post) = some (pid : Int) := by
  have hfind : ∃ before, findall (pre ++ (l!"__remote_pid=" ++ dec pid ++ l!"__\n") ++ post) = before ++ [(l!"remote_pid", dec pid)] ++ findall post := by
    rcases hpre with rfl | ⟨a, rfl⟩
    · refine ⟨[], ?_⟩
      have : [] ++ (l!"__remote_pid=" ++ dec pid ++ l!"__\n") ++ post = (l!"__remote_pid=" ++ dec pid ++ l!"__") ++ 10 :: post := by simp
      rw [this, findall_line, findall_pid]; simp
    · refine ⟨findall a, ?_⟩
      have : a ++ [10] ++ (l!"__remote_pid=" ++ dec pid ++ l!"__\n") ++ post = a ++ 10 :: ((l!"__remote_pid=" ++ dec pid ++ l!"__") ++ 10 :: post) := by simp
      rw [this, findall_line, findall_line, findall_pid]; simp
  obtain ⟨before, hf⟩ := hfind
  unfold getPid
  rw [hf]
  have hnone : (findall post).reverse.find? (fun kv => decide (kv.1 = l!"remote_pid")) = none := by
    rw [List.find?_eq_none]
    intro kv hkv
    simpa using hpost kv (List.mem_reverse.1 hkv)
  rw [List.reverse_append, List.reverse_append, List.find?_append, hnone]
  simp only [List.reverse_cons, List.reverse_nil, List.nil_append, List.cons_append, Option.none_or, List.find?_cons, decide_true, Option.bind_eq_bind, Option.bind_some]
  have hd := isDigit_dec pid
  cases h : dec pid with
  | nil => exact absurd h (dec_ne_nil pid)
  | cons c t =>
    rw [h] at hd
    have hc := hd c (by simp)
    have hne : c ≠ 45 := by rintro rfl; simp [isDigit] at hc
    have hall : (c :: t).all isDigit = true := List.all_eq_true.2 hd
    have hn := natOf_dec pid
    rw [h] at hn
    unfold pyInt
    split
    · rename_i heq; exact absurd (List.cons.inj heq).1 hne
    · rw [if_pos ⟨by simp, hall⟩, hn]

/-! ## substrings -/

theorem contains_iff (t s : Str) (ht : t ≠ []) : contains t s = true ↔ Spec.Occurs t s := by
  induction s with
  | nil =>
    simp only [contains, List.isEmpty_iff]
    constructor
    · exact fun h => absurd h ht
    · rintro ⟨a, b, h⟩
      have := congrArg List.length h
      simp only [List.length_nil, List.length_append] at this
      exact List.eq_nil_of_length_eq_zero (by omega)
  | cons c s ih =>
    simp only [contains, Bool.or_eq_true, ih]
    constructor
    · rintro (h | ⟨a, b, h⟩)
      · obtain ⟨r, hr⟩ := Option.isSome_iff_exists.1 h
        exact ⟨[], r, stripPrefix_some hr⟩
      · exact ⟨c :: a, b, by rw [h]; rfl⟩
    · rintro ⟨a, b, h⟩
      cases a with
      | nil => left; rw [h]; simp [stripPrefix_append]
      | cons d a => right; simp only [List.cons_append, List.cons.injEq] at h; exact ⟨a, b, h.2⟩

theorem occurs_line (t a b : Str) (ht : t ≠ []) (hn : ∀ c ∈ t, c ≠ 10) (h : Spec.Occurs t (a ++ 10 :: b)) : Spec.Occurs t a ∨ Spec.Occurs t b := by
  obtain ⟨x, y, h⟩ := h
  rw [List.append_assoc] at h
  rcases List.append_eq_append_iff.1 h with ⟨u, h1, h2⟩ | ⟨u, h1, h2⟩
  · -- x = a ++ u
    cases u with
    | nil =>
      simp only [List.nil_append] at h2
      cases t with
      | nil => exact absurd rfl ht
      | cons c t =>
        simp only [List.cons_append, List.cons.injEq] at h2
        exact absurd h2.1.symm (hn c (by simp))
    | cons d u =>
      simp only [List.cons_append, List.cons.injEq] at h2
      right
      exact ⟨u, y, by rw [h2.2, List.append_assoc]⟩
  · -- a = x ++ u, t ++ y = u ++ 10 :: b
    rcases List.append_eq_append_iff.1 h2 with ⟨v, h3, h4⟩ | ⟨v, h3, h4⟩
    · -- u = t ++ v
      left; exact ⟨x, v, by rw [h1, h3, List.append_assoc]⟩
    · -- t = u ++ v, 10 :: b = v ++ y
      cases v with
      | nil =>
        left
        simp only [List.append_nil] at h3
        exact ⟨x, [], by rw [h1, h3]; simp⟩
      | cons d v =>
        simp only [List.cons_append, List.cons.injEq] at h4
        exact absurd h4.1.symm (hn d (by rw [h3]; simp))

/-! ## from end to end -/

theorem goodStr_ascii (s : Str) (h : ∀ c ∈ s, c < 128) : Spec.GoodStr s := by
  refine ⟨fun c hc => Nat.lt_trans (h c hc) (by decide), ?_⟩
  rintro u a b v rfl ⟨hh, -⟩
  have := h a (by simp)
  unfold Spec.High at hh; omega

/-- the names of the methods used -/
def nameOk (m : Str) : Bool := m.all fun c => c != 10 && c != 40

theorem name_ok (m : Str) (h : nameOk m = true) : Spec.Name m := by
  intro c hc
  have := List.all_eq_true.1 h c hc
  simpa using this

theorem sendOver_eq (pre post define : Str) (hd : Spec.NoInputs define) (recv : List (Str × J)) (hr : Spec.Good (.obj recv)) (w : World) (c : Command) (hm : Spec.Name c.method) (ha : Spec.Good (.obj c.args)) :
    sendOver pre post define recv w c = (receive w c).map fun (out, w') => (pre ++ out ++ post, w') := by
  have h := command_arrives define hd recv hr c hm ha
  unfold sendOver
  cases hp : program define recv c with
  | none => rw [hp] at h; cases h
  | some prog =>
    rw [hp] at h
    simp only [Option.bind_some] at h
    simp only [Option.bind_eq_bind, Option.bind_some, h]
    cases receive w c <;> rfl

theorem updateEnviron_eq (changes : List (Str × J)) (hv : ∀ kv ∈ changes, Spec.EnvValue kv.2) (hn : (changes.map (·.1)).Nodup) (base : Str → Option Str) :
    ∃ e, updateEnviron base changes = some e ∧ ∀ k, e k = Spec.environ base changes k := by
  induction changes generalizing base with
  | nil => exact ⟨base, rfl, fun k => rfl⟩
  | cons kv rest ih =>
    obtain ⟨k, v⟩ := kv
    simp only [List.map_cons, List.nodup_cons] at hn
    have hrest := fun b => ih (fun x hx => hv x (by simp [hx])) hn.2 b
    have hk : rest.find? (fun kv => decide (kv.1 = k)) = none := by
      rw [List.find?_eq_none]
      intro x hx he
      exact hn.1 (List.mem_map.2 ⟨x, hx, by simpa using he⟩)
    have hval := hv (k, v) (by simp)
    have key : ∀ (o : Option Str), (∀ x, Spec.environ base ((k, v) :: rest) x = if x = k then o else Spec.environ base rest x) →
        ∀ e : Str → Option Str, (∀ x, e x = Spec.environ (fun y => if y = k then o else base y) rest x) → ∀ x, e x = Spec.environ base ((k, v) :: rest) x := by
      intro o h1 e h2 x
      rw [h1, h2]
      unfold Spec.environ
      by_cases hx : x = k
      · subst hx; simp [hk]
      · simp [hx]
    have spec : ∀ o, Spec.environ base [(k, v)] k = o → ∀ x, Spec.environ base ((k, v) :: rest) x = if x = k then o else Spec.environ base rest x := by
      intro o ho x
      by_cases hx : x = k
      · subst hx
        rw [if_pos rfl, ← ho]
        simp only [Spec.environ, List.find?_cons, decide_true]
      · have : ¬ k = x := fun h => hx h.symm
        simp [Spec.environ, hx, this]
    cases v with
    | null =>
      obtain ⟨e, h1, h2⟩ := hrest (fun x => if x = k then none else base x)
      exact ⟨e, by simpa [updateEnviron] using h1, key none (spec _ (by simp [Spec.environ, strOf])) e h2⟩
    | str s =>
      cases s with
      | nil =>
        obtain ⟨e, h1, h2⟩ := hrest (fun x => if x = k then none else base x)
        exact ⟨e, by simpa [updateEnviron] using h1, key none (spec _ (by simp [Spec.environ, strOf])) e h2⟩
      | cons c s =>
        obtain ⟨e, h1, h2⟩ := hrest (fun x => if x = k then some (c :: s) else base x)
        exact ⟨e, by simpa [updateEnviron, strOf] using h1, key (some (c :: s)) (spec _ (by simp [Spec.environ, strOf])) e h2⟩
    | num i =>
      obtain ⟨e, h1, h2⟩ := hrest (fun x => if x = k then some (dumpInt i) else base x)
      exact ⟨e, by simpa [updateEnviron, strOf] using h1, key (some (dumpInt i)) (spec _ (by simp [Spec.environ, strOf])) e h2⟩
    | bool b =>
      cases b with
      | true =>
        obtain ⟨e, h1, h2⟩ := hrest (fun x => if x = k then some l!"True" else base x)
        exact ⟨e, by simpa [updateEnviron, strOf] using h1, key (some l!"True") (spec _ (by simp [Spec.environ, strOf])) e h2⟩
      | false =>
        obtain ⟨e, h1, h2⟩ := hrest (fun x => if x = k then some l!"False" else base x)
        exact ⟨e, by simpa [updateEnviron, strOf] using h1, key (some l!"False") (spec _ (by simp [Spec.environ, strOf])) e h2⟩
    | arr l => exact absurd hval (by simp [Spec.EnvValue])
    | obj l => exact absurd hval (by simp [Spec.EnvValue])

theorem asCmd_strs (argv : List Str) : asCmd (.arr (argv.map .str)) = some argv := by
  show (argv.map J.str).mapM _ = _
  induction argv with
  | nil => rfl
  | cons a l ih =>
    simp only [List.map_cons, List.mapM_cons, Option.bind_eq_bind, Option.bind_some]
    rw [ih]; rfl

theorem goodList_strs (argv : List Str) (h : ∀ a ∈ argv, Spec.GoodStr a) : Spec.GoodList (argv.map .str) := by
  induction argv with
  | nil => trivial
  | cons a l ih => exact ⟨h a (by simp), ih (fun x hx => h x (by simp [hx]))⟩

theorem goodObj_env (env : List (Str × J)) (h : ∀ kv ∈ env, Spec.GoodStr kv.1 ∧ Spec.Good kv.2) : Spec.GoodObj env := by
  induction env with
  | nil => trivial
  | cons kv l ih => exact ⟨(h kv (by simp)).1, (h kv (by simp)).2, ih (fun x hx => h x (by simp [hx]))⟩

/-- a parameter that may be `None` -/
def optStr : Option Str → J
  | none => .null
  | some s => .str s

/-- **C82 (start).** `cmd_start` starts exactly one process, with exactly the given arguments and output file (none, if it is None or empty), in the remote environment with exactly the given changes, and returns its pid. -/
theorem start_exact (pre post define : Str) (hd : Spec.NoInputs define) (hpre : Spec.WholeLines pre) (hpost : ∀ kv ∈ findall post, kv.1 ≠ l!"remote_pid")
    (w : World) (argv : List Str) (env : List (Str × J)) (out : Option Str) (pid : Nat) (hargv : ∀ a ∈ argv, Spec.GoodStr a)
    (henv : ∀ kv ∈ env, Spec.GoodStr kv.1 ∧ Spec.Good kv.2 ∧ Spec.EnvValue kv.2) (hkeys : (env.map (·.1)).Nodup) (hout : ∀ o, out = some o → Spec.GoodStr o) (hs : w.spawn argv = some pid) :
    ∃ w', cmdStart (sendOver pre post define []) w (.arr (argv.map .str)) (.obj env) (optStr out) = some ((pid : Int), w') ∧
      ∃ e, w'.started = w.started ++ [⟨pid, argv, e, if out = some [] then none else out⟩] ∧ ∀ k, e k = Spec.environ w.environ env k := by
  obtain ⟨e, he, hspec⟩ := updateEnviron_eq env (fun kv h => (henv kv h).2.2) hkeys w.environ
  have hgood : Spec.Good (.obj [(l!"cmd", .arr (argv.map .str)), (l!"env", .obj env), (l!"output_file", optStr out)]) := by
    simp only [Spec.Good, Spec.GoodObj, and_true]
    exact ⟨goodStr_ascii _ (by decide), goodList_strs argv hargv, goodStr_ascii _ (by decide), goodObj_env env (fun kv h => ⟨(henv kv h).1, (henv kv h).2.1⟩), goodStr_ascii _ (by decide), by cases out with
      | none => trivial
      | some o => exact hout o rfl⟩
  have hrec : receive w ⟨l!"cmd_start", [(l!"cmd", .arr (argv.map .str)), (l!"env", .obj env), (l!"output_file", optStr out)]⟩ =
      some (l!"__remote_pid=" ++ dec pid ++ l!"__\n", { w with started := w.started ++ [⟨pid, argv, e, if out = some [] then none else out⟩] }) := by
    have p1 : param [(l!"cmd", .arr (argv.map .str)), (l!"env", .obj env), (l!"output_file", optStr out)] l!"cmd" = .arr (argv.map .str) := rfl
    have p2 : param [(l!"cmd", .arr (argv.map .str)), (l!"env", .obj env), (l!"output_file", optStr out)] l!"env" = .obj env := rfl
    have p3 : param [(l!"cmd", .arr (argv.map .str)), (l!"env", .obj env), (l!"output_file", optStr out)] l!"output_file" = optStr out := rfl
    unfold receive
    rw [if_pos rfl, p1, p2, p3, asCmd_strs]
    simp only [Option.bind_eq_bind, Option.bind_some]
    rw [he]
    cases out with
    | none => simp only [optStr, Option.bind_some, hs]; rfl
    | some o => cases o with
      | nil => simp only [optStr, Option.bind_some, hs]; rfl
      | cons c o => simp only [optStr, Option.bind_some, hs]; rfl
  refine ⟨{ w with started := w.started ++ [⟨pid, argv, e, if out = some [] then none else out⟩] }, ?_, e, rfl, hspec⟩
  unfold cmdStart
  rw [sendOver_eq pre post define hd [] trivial w _ (name_ok _ rfl) hgood, hrec]
  simp only [Option.map_some, Option.bind_eq_bind, Option.bind_some]
  rw [pid_read pre post pid hpre hpost]
  rfl

theorem mark (pre post line t : Str) (hpre : Spec.WholeLines pre) (ht : t ≠ []) (hn : ∀ c ∈ t, c ≠ 10) (h : contains t (pre ++ (line ++ [10]) ++ post) = true) :
    Spec.Occurs t pre ∨ Spec.Occurs t line ∨ Spec.Occurs t post := by
  rw [contains_iff _ _ ht] at h
  rcases hpre with rfl | ⟨a, rfl⟩
  · have e : [] ++ (line ++ [10]) ++ post = line ++ 10 :: post := by simp
    rw [e] at h
    exact Or.inr (occurs_line t _ _ ht hn h)
  · have e : a ++ [10] ++ (line ++ [10]) ++ post = a ++ 10 :: (line ++ 10 :: post) := by simp
    rw [e] at h
    rcases occurs_line t _ _ ht hn h with ⟨x, y, h⟩ | h
    · exact Or.inl ⟨x, y ++ [10], by rw [h]; simp⟩
    · exact Or.inr (occurs_line t _ _ ht hn h)

theorem contains_mid (t pre line post : Str) (ht : t ≠ []) (h : Spec.Occurs t line) : contains t (pre ++ (line ++ [10]) ++ post) = true := by
  rw [contains_iff _ _ ht]
  obtain ⟨a, b, rfl⟩ := h
  exact ⟨pre ++ a, b ++ [10] ++ post, by simp⟩

theorem flag_read (b : Bool) (yes no pre post : Str) (hy : yes ≠ []) (hyn : ∀ c ∈ yes, c ≠ 10) (hno : no ≠ []) (hd : ¬ Spec.Occurs yes no) (hpre : Spec.WholeLines pre)
    (h1 : ¬ Spec.Occurs yes pre) (h2 : ¬ Spec.Occurs yes post) :
    (if contains yes (pre ++ ((if b then yes else no) ++ [10]) ++ post) then some true else if contains no (pre ++ ((if b then yes else no) ++ [10]) ++ post) then some false else none) = some b := by
  cases b with
  | true =>
    simp only [if_true]
    rw [if_pos (contains_mid yes pre yes post hy ⟨[], [], by simp⟩)]
  | false =>
    simp only [Bool.false_eq_true, if_false]
    rw [if_neg, if_pos (contains_mid no pre no post hno ⟨[], [], by simp⟩)]
    intro h
    rcases mark pre post no yes hpre hy hyn h with h | h | h
    · exact h1 h
    · exact hd h
    · exact h2 h

/-- **C82 (running).** `cmd_running` tells whether the process runs, whatever the shell prints (other than this very answer). -/
theorem running_exact (pre post define : Str) (hd : Spec.NoInputs define) (hpre : Spec.WholeLines pre) (h1 : ¬ Spec.Occurs l!"__running=1__" pre) (h2 : ¬ Spec.Occurs l!"__running=1__" post)
    (w : World) (pid : Nat) : cmdRunning (sendOver pre post define []) w pid = some (w.running pid) := by
  unfold cmdRunning
  rw [sendOver_eq pre post define hd [] trivial w _ (name_ok _ rfl) (by simp only [Spec.Good, Spec.GoodObj, and_true]; exact goodStr_ascii _ (by decide))]
  have hrec : receive w ⟨l!"cmd_running", [(l!"pid", .num (pid : Int))]⟩ = some ((if w.running pid then l!"__running=1__" else l!"__running=0__") ++ [10], w) := by
    have : receive w ⟨l!"cmd_running", [(l!"pid", .num (pid : Int))]⟩ = some (if w.running pid then l!"__running=1__\n" else l!"__running=0__\n", w) := rfl
    rw [this]
    cases w.running pid <;> rfl
  rw [hrec]
  simp only [Option.map_some, Option.bind_eq_bind, Option.bind_some, Option.pure_def]
  exact flag_read (w.running pid) l!"__running=1__" l!"__running=0__" pre post (by decide) (by decide) (by decide) (by rw [← contains_iff _ _ (by decide)]; decide) hpre h1 h2

/-- **C82 (exists).** `cmd_exists` tells whether the path exists, for every path. -/
theorem exists_exact (pre post define : Str) (hd : Spec.NoInputs define) (hpre : Spec.WholeLines pre) (h1 : ¬ Spec.Occurs l!"__exists=1__" pre) (h2 : ¬ Spec.Occurs l!"__exists=1__" post)
    (w : World) (path : Str) (hp : Spec.GoodStr path) : cmdExists (sendOver pre post define []) w path = some (w.files path) := by
  unfold cmdExists
  rw [sendOver_eq pre post define hd [] trivial w _ (name_ok _ rfl) (by simp only [Spec.Good, Spec.GoodObj, and_true]; exact ⟨goodStr_ascii _ (by decide), hp⟩)]
  have hrec : receive w ⟨l!"cmd_exists", [(l!"path", .str path)]⟩ = some ((if w.files path then l!"__exists=1__" else l!"__exists=0__") ++ [10], w) := by
    have : receive w ⟨l!"cmd_exists", [(l!"path", .str path)]⟩ = some (if w.files path then l!"__exists=1__\n" else l!"__exists=0__\n", w) := rfl
    rw [this]
    cases w.files path <;> rfl
  rw [hrec]
  simp only [Option.map_some, Option.bind_eq_bind, Option.bind_some, Option.pure_def]
  exact flag_read (w.files path) l!"__exists=1__" l!"__exists=0__" pre post (by decide) (by decide) (by decide) (by rw [← contains_iff _ _ (by decide)]; decide) hpre h1 h2

/-- **C82 (kill).** With a signal other than 0, `cmd_kill` sends exactly that signal to exactly that process, or raises if it does not run. -/
theorem kill_exact (pre post define : Str) (hd : Spec.NoInputs define) (w : World) (pid sig : Nat) (hs : sig ≠ 0) :
    cmdKill (sendOver pre post define []) w pid (some sig) = if w.running pid then some { w with signals := w.signals ++ [(pid, sig)] } else none := by
  unfold cmdKill
  have : ((sig : Int) ≠ 0) := by omega
  simp only [this, ne_eq, not_false_eq_true, if_true]
  rw [sendOver_eq pre post define hd [] trivial w _ (name_ok _ rfl) (by simp only [Spec.Good, Spec.GoodObj, and_true]; exact ⟨goodStr_ascii _ (by decide), trivial, goodStr_ascii _ (by decide)⟩)]
  have hrec : receive w ⟨l!"cmd_kill", [(l!"pid", .num (pid : Int)), (l!"sig", .num (sig : Int))]⟩ = if w.running pid then some ([], { w with signals := w.signals ++ [(pid, sig)] }) else none := rfl
  rw [hrec]
  cases w.running pid <;> rfl

/-- **C82 (remove).** `cmd_remove` removes exactly that file, or raises if there is none. -/
theorem remove_exact (pre post define : Str) (hd : Spec.NoInputs define) (w : World) (path : Str) (hp : Spec.GoodStr path) :
    cmdRemove (sendOver pre post define []) w path = if w.files path then some { w with files := fun x => if x = path then false else w.files x } else none := by
  unfold cmdRemove
  rw [sendOver_eq pre post define hd [] trivial w _ (name_ok _ rfl) (by simp only [Spec.Good, Spec.GoodObj, and_true]; exact ⟨goodStr_ascii _ (by decide), hp⟩)]
  have hrec : receive w ⟨l!"cmd_remove", [(l!"path", .str path)]⟩ = if w.files path then some ([], { w with files := fun x => if x = path then false else w.files x }) else none := rfl
  rw [hrec]
  cases w.files path <;> rfl

/-- **C82, violation.** `cmd_kill` without a signal, its default, always fails on hosts other than Windows (`os.kill(pid, None)`), and so does signal 0. -/
theorem kill_without_signal_violated (pre post define : Str) (hd : Spec.NoInputs define) (w : World) (pid : Nat) :
    cmdKill (sendOver pre post define []) w pid none = none ∧ cmdKill (sendOver pre post define []) w pid (some 0) = none := by
  have h : sendOver pre post define [] w ⟨l!"cmd_kill", [(l!"pid", .num (pid : Int))]⟩ = none := by
    rw [sendOver_eq pre post define hd [] trivial w _ (name_ok _ rfl) (by simp only [Spec.Good, Spec.GoodObj, and_true]; exact goodStr_ascii _ (by decide))]
    rfl
  unfold cmdKill
  simp [h]

/-- **C82, violation.** If the shell prints something before that is not a whole line, the pid may not be found although the process was started. -/
theorem partial_line_violated : getPid (l!"last login: __today__" ++ l!"__remote_pid=4711__\n") = none ∧ getPid (l!"last login: x__y" ++ l!"__remote_pid=4711__\n") = none := by decide +kernel

end IPP.Shell
