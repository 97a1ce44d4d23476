import Verif.View.ImportsProps
/-!
# C84: the statements about `view.sync_imports()`
-/
namespace IPP.Imports

/-! ### specification of import statements, locally (the language reference, "The import statement") -/

/-- the name that `import a.b.c` binds -/
def topName (n : Name) : Name := n.takeWhile (fun ch => ch ≠ '.')

/-- the names that a statement binds -/
def Stmt.binds (i : Stmt) : List Name := if i.fromlist = [] then [topName i.name] else i.fromlist

/-- what a name is bound to by a statement, in a world where the statement succeeds -/
def Stmt.value (w : World) (i : Stmt) (x : Name) : Option Nat := if i.fromlist = [] then w.mods (topName i.name) else (w.mods i.name).bind (fun m => w.attr m x)

/-- an import statement executed in a namespace -/
def localImport (w : World) (i : Stmt) (ns : Name → Option Nat) : Name → Option Nat := fun x => if x ∈ i.binds then i.value w x else ns x

/-- an engine executes the requests of a block in the order they were sent (C65) -/
def runRemote (w : World) (l : List Stmt) (ns : Name → Option Nat) : Name → Option Nat := l.foldl (fun ns i => (remoteImport w i ns).1) ns

/-- the import statements of a block executed locally -/
def runLocal (w : World) (l : List Stmt) (ns : Name → Option Nat) : Name → Option Nat := l.foldl (fun ns i => localImport w i ns) ns

/-! ### the ordinary `__import__` is back -/

/-- After a block, however it ends and whatever was executed in it, `builtins.__import__` is what it was before the block. -/
theorem restored (c : Cfg) (v f : Nat) (body : List Act) (caught : Bool) (s : St) : (exec c (.block v f body caught) s).1.hook = s.hook := by
  rw [exec]

/-- A program that begins with the ordinary `__import__` ends with it. -/
theorem ordinary_again (c : Cfg) (l : List Act) (s : St) (h : s.hook = .real) : (execAll c l s).1.hook = .real := ((execAll_ext c l s).real h).1

/-- In every reachable state the blocks that have sent something have smaller numbers than the next one. -/
theorem numbered (c : Cfg) (l : List Act) : ∀ r ∈ (execAll c l {}).1.sent, r.block < (execAll c l {}).1.next := by
  have gen : ∀ n, (∀ a : Act, sizeOf a ≤ n → ∀ s : St, (∀ r ∈ s.sent, r.block < s.next) → (∀ b v f p, s.hook = .view b v f p → b < s.next) → ∀ r ∈ (exec c a s).1.sent, r.block < (exec c a s).1.next) ∧
      (∀ l : List Act, sizeOf l ≤ n → ∀ s : St, (∀ r ∈ s.sent, r.block < s.next) → (∀ b v f p, s.hook = .view b v f p → b < s.next) → ∀ r ∈ (execAll c l s).1.sent, r.block < (execAll c l s).1.next) := by
    intro n
    induction n with
    | zero =>
      refine ⟨fun a h => ?_, fun l h => ?_⟩
      · cases a <;> simp at h
      · cases l <;> simp at h
    | succ n ih =>
      refine ⟨fun a h s hs hk => ?_, fun l h s hs hk => ?_⟩
      · cases a with
        | raise e => rw [exec]; exact hs
        | block v f body caught =>
          rw [exec]
          simp only [Act.block.sizeOf_spec] at h
          refine ih.2 body (by omega) { s with hook := .view s.next v f s.hook, next := s.next + 1 } (fun r hr => Nat.lt_succ_of_lt (hs r hr)) ?_
          intro b v f p e
          injection e with e
          rw [← e]; exact Nat.lt_succ_self _
        | imp i f nested fails caught =>
          simp only [Act.imp.sizeOf_spec] at h
          have h1 : ∀ r ∈ (inner c nested i s).1.sent, r.block < (inner c nested i s).1.next :=
            ih.2 nested (by omega) { s with hook := .real, log := s.log ++ [i] } hs (by intro _ _ _ _ e; cases e)
          have h2 := (inner_ext c nested i s).2.1
          rw [exec_imp]
          split
          · exact h1
          · rename_i b v ctx p hh
            split
            · exact h1
            · split
              · exact h1
              · split
                · intro r hr
                  simp only [List.mem_append, List.mem_singleton] at hr
                  rcases hr with hr | hr
                  · exact h1 r hr
                  · subst hr; exact Nat.lt_of_lt_of_le (hk b v ctx p hh) h2
                · exact h1
      · cases l with
        | nil => rw [execAll]; exact hs
        | cons a l =>
          simp only [List.cons.sizeOf_spec] at h
          have h1 := ih.1 a (by omega) s hs hk
          have h2 := exec_ext c a s
          rw [execAll_cons]
          cases hx : exec c a s with
          | mk s' e =>
            rw [hx] at h1 h2
            cases e with
            | some e => exact h1
            | none =>
              refine ih.2 l (by omega) s' h1 ?_
              intro b v f p e
              rcases h2.hook with y | y
              · exact Nat.lt_of_lt_of_le (hk b v f p (y ▸ e)) h2.next
              · rw [show s'.hook = Hook.real from y] at e; cases e
  exact (gen _).2 l (Nat.le_refl _) {} (by intro r hr; cases hr) (by intro _ _ _ _ e; cases e)

/-! ### what is sent -/

/-- The state in which the body of a block begins. -/
def entered (v f : Nat) (s : St) : St := { s with hook := .view s.next v f s.hook, next := s.next + 1 }

theorem exec_block (c : Cfg) (v f : Nat) (body : List Act) (caught : Bool) (s : St) :
    exec c (.block v f body caught) s =
      ({ (execAll c body (entered v f s)).1 with hook := s.hook }, if caught then none else leave c (requests s.next (execAll c body (entered v f s)).1) (execAll c body (entered v f s)).2) := by
  rw [exec]; rfl

/-- For every block whose own statements are import statements, executed in the block's frame and not caught — whatever the imported modules do: exactly the statements executed up to the first failing
one are sent to the view, absolute imports only, each once, in order, and nothing of what the modules import themselves; each of them is also performed locally. When none fails, that is all of them, and
the block ends with the first remote failure, if there is one. -/
theorem forwarded_partial (c : Cfg) (v f : Nat) (body : List Act) (s : St) (hs : ∀ r ∈ s.sent, r.block < s.next) (hd : ∀ a ∈ body, Direct f a) :
    let r := exec c (.block v f body false) s
    ∃ done rest, body = done ++ rest ∧ requests s.next r.1 = (firsts (done.filterMap Act.stmt)).map (fun i => ⟨s.next, v, i⟩) ∧
      (∃ l, r.1.log = s.log ++ l ∧ (done.filterMap Act.stmt).Sublist l) ∧
      (rest = [] ∧ r.2 = (requests s.next r.1).findSome? (remoteErr c) ∨ rest ≠ [] ∧ r.2 ≠ none) := by
  have h0 : requests s.next (entered v f s) = (firsts []).map (fun i => ⟨s.next, v, i⟩) := by
    have : requests s.next (entered v f s) = [] := by
      unfold requests entered
      rw [List.filter_eq_nil_iff]
      intro r hr
      have := hs r hr
      simp; omega
    rw [this]; rfl
  obtain ⟨done, rest, e1, e2, ⟨l, e3, e4⟩, e5⟩ := run_direct c s.next v f s.hook body (entered v f s) [] hd (by simp) rfl (Nat.lt_succ_self _) h0
  rw [List.nil_append] at e2
  simp only [exec_block]
  refine ⟨done, rest, e1, e2, ⟨l, e3, e4⟩, ?_⟩
  rcases e5 with ⟨x, y⟩ | ⟨x, y⟩
  · refine .inl ⟨x, ?_⟩
    simp only [Bool.false_eq_true, if_false, y, leave]
    rfl
  · refine .inr ⟨x, ?_⟩
    simp only [Bool.false_eq_true, if_false]
    cases hx : (execAll c body (entered v f s)).2 with
    | none => exact absurd hx y
    | some e => simp [leave]

/-! ### the engines -/

theorem bindAll_ok_ns (w : World) (m : Nat) : ∀ (l : List Name) (ns ns' : Name → Option Nat), (bindAll w m l ns).2 = (bindAll w m l ns').2
  | [], _, _ => rfl
  | x :: l, ns, ns' => by
    simp only [bindAll]
    cases w.attr m x with
    | none => rfl
    | some v => exact bindAll_ok_ns w m l _ _

/-- whether a remote import fails does not depend on the engine's namespace -/
theorem remote_ok_ns (w : World) (i : Stmt) (ns ns' : Name → Option Nat) : (remoteImport w i ns).2 = (remoteImport w i ns').2 := by
  unfold remoteImport
  split
  · rfl
  · split
    · rfl
    · exact bindAll_ok_ns _ _ _ _ _

/-- A block that ends without error has been imported by every engine of the view. -/
theorem no_error_all_engines (c : Cfg) (v f : Nat) (body : List Act) (s : St) (hs : ∀ r ∈ s.sent, r.block < s.next) (hd : ∀ a ∈ body, Direct f a)
    (h : (exec c (.block v f body false) s).2 = none) : ∀ i ∈ firsts (body.filterMap Act.stmt), ∀ w ∈ c.engines v, ∀ ns, (remoteImport w i ns).2 = true := by
  obtain ⟨done, rest, e1, e2, _, e5⟩ := forwarded_partial c v f body s hs hd
  rcases e5 with ⟨x, y⟩ | ⟨_, y⟩
  · subst x
    rw [List.append_nil] at e1; subst e1
    rw [h, e2] at y
    intro i hi w hw ns
    have := List.findSome?_eq_none_iff.1 y.symm ⟨s.next, v, i⟩ (List.mem_map_of_mem hi)
    unfold remoteErr at this
    split at this
    · rename_i ha
      rw [remote_ok_ns w i ns (fun _ => none)]
      exact List.all_eq_true.1 ha w hw
    · cases this
  · exact absurd h y

/-- A remote failure is raised at the end of the block. -/
theorem remote_failure_raised (c : Cfg) (v f : Nat) (body : List Act) (s : St) (hs : ∀ r ∈ s.sent, r.block < s.next) (hd : ∀ a ∈ body, Direct f a)
    (i : Stmt) (hi : i ∈ firsts (body.filterMap Act.stmt)) (w : World) (hw : w ∈ c.engines v) (ns : Name → Option Nat) (hf : (remoteImport w i ns).2 = false) :
    (exec c (.block v f body false) s).2 ≠ none := fun h => by
  have := no_error_all_engines c v f body s hs hd h i hi w hw ns
  rw [hf] at this; cases this

theorem bindAll_value (w : World) (m : Nat) : ∀ (l : List Name) (ns : Name → Option Nat), (bindAll w m l ns).2 = true →
    ∀ x, (bindAll w m l ns).1 x = if x ∈ l then w.attr m x else ns x
  | [], ns, _, x => by simp [bindAll]
  | y :: l, ns, h, x => by
    simp only [bindAll] at h ⊢
    cases ha : w.attr m y with
    | none => rw [ha] at h; cases h
    | some v =>
      rw [ha] at h
      simp only
      rw [bindAll_value w m l _ h x]
      by_cases hx : x ∈ l
      · simp [hx]
      · by_cases hy : x = y
        · subst hy; simp [hx, ha]
        · simp [hx, hy]

theorem topName_undotted : ∀ {n : Name}, '.' ∉ n → topName n = n
  | [], _ => rfl
  | x :: n, h => by
    simp only [List.mem_cons, not_or] at h
    have := topName_undotted h.2
    unfold topName at this ⊢
    rw [List.takeWhile_cons, if_pos (by simp; exact fun e => h.1 e.symm), this]

/-- A successful remote import binds the names that the local statement binds, to the same things — unless it is `import a.b`. -/
theorem remote_as_local (w : World) (i : Stmt) (ns : Name → Option Nat) (hn : i.fromlist ≠ [] ∨ '.' ∉ i.name) (h : (remoteImport w i ns).2 = true) :
    (remoteImport w i ns).1 = localImport w i ns := by
  funext x
  unfold remoteImport at h ⊢
  unfold localImport Stmt.binds Stmt.value
  split at h
  · cases h
  · rename_i m hm
    split at h
    · rename_i hf
      have ht := topName_undotted (hn.resolve_left (fun e => e hf))
      simp [hf, ht, hm]
    · rename_i hf
      simp only [hf, if_false, hm, Option.bind_some]
      exact bindAll_value w m _ ns h x

theorem runLocal_agree (w : World) : ∀ (l : List Stmt) (ns ns' : Name → Option Nat) (x : Name), (ns x = ns' x ∨ ∃ i ∈ l, x ∈ i.binds) → runLocal w l ns x = runLocal w l ns' x
  | [], ns, ns', x, h => by
    rcases h with h | ⟨i, hi, _⟩
    · exact h
    · cases hi
  | i :: l, ns, ns', x, h => by
    simp only [runLocal, List.foldl_cons]
    refine runLocal_agree w l _ _ x ?_
    rcases h with h | ⟨j, hj, hx⟩
    · left; unfold localImport; rw [h]
    · rcases List.mem_cons.1 hj with e | hj
      · subst e; left; unfold localImport; simp [hx]
      · exact .inr ⟨j, hj, hx⟩

theorem runRemote_eq (w : World) : ∀ (l : List Stmt) (ns : Name → Option Nat), (∀ i ∈ l, (i.fromlist ≠ [] ∨ '.' ∉ i.name) ∧ ∀ ns, (remoteImport w i ns).2 = true) → runRemote w l ns = runLocal w l ns
  | [], ns, _ => rfl
  | i :: l, ns, h => by
    simp only [runRemote, runLocal, List.foldl_cons]
    have hi := h i List.mem_cons_self
    rw [remote_as_local w i ns hi.1 (hi.2 ns)]
    exact runRemote_eq w l _ (fun j hj => h j (List.mem_cons_of_mem _ hj))

theorem firsts_nodup : ∀ {l : List Stmt}, l.Nodup → (∀ i ∈ l, i.level = 0) → firsts l = l := by
  intro l
  have : ∀ k : List Stmt, k.Nodup → k.eraseDups = k := by
    intro k
    induction k with
    | nil => intro _; rfl
    | cons a k ih =>
      intro h
      rw [List.nodup_cons] at h
      rw [List.eraseDups_cons]
      have : k.filter (fun b => !b == a) = k := by
        rw [List.filter_eq_self]
        intro b hb
        simp only [Bool.not_eq_true', beq_eq_false_iff_ne, ne_eq]
        exact fun e => h.1 (e ▸ hb)
      rw [this, ih h.2]
  intro hn h0
  unfold firsts
  rw [List.filter_eq_self.2 (fun i hi => by simp [h0 i hi])]
  exact this l hn

/-- For every block of different absolute imports, each `from … import …` or without a dot, that ends without error: on every engine of the view whose modules are those of the client, every name bound by
the statements is afterwards bound to the same thing as locally — whatever the namespaces were before. -/
theorem same_names_partial (c : Cfg) (v f : Nat) (body : List Act) (s : St) (hs : ∀ r ∈ s.sent, r.block < s.next) (hd : ∀ a ∈ body, Direct f a)
    (hn : (body.filterMap Act.stmt).Nodup) (h0 : ∀ i ∈ body.filterMap Act.stmt, i.level = 0 ∧ (i.fromlist ≠ [] ∨ '.' ∉ i.name))
    (h : (exec c (.block v f body false) s).2 = none) (w : World) (hw : w ∈ c.engines v) (mine theirs : Name → Option Nat) (x : Name) (hx : ∃ i ∈ body.filterMap Act.stmt, x ∈ i.binds) :
    runRemote w ((requests s.next (exec c (.block v f body false) s).1).map Req.stmt) theirs x = runLocal w (body.filterMap Act.stmt) mine x := by
  have hall := no_error_all_engines c v f body s hs hd h
  obtain ⟨done, rest, e1, e2, _, e5⟩ := forwarded_partial c v f body s hs hd
  rcases e5 with ⟨e, _⟩ | ⟨_, y⟩
  · subst e
    rw [List.append_nil] at e1; subst e1
    rw [firsts_nodup hn (fun i hi => (h0 i hi).1)] at e2 hall
    rw [e2, List.map_map]
    have : (body.filterMap Act.stmt).map (Req.stmt ∘ fun i => (⟨s.next, v, i⟩ : Req)) = body.filterMap Act.stmt := by simp [Function.comp_def]
    rw [this, runRemote_eq w _ theirs (fun i hi => ⟨(h0 i hi).2, fun ns => hall i hi w hw ns⟩)]
    exact runLocal_agree w _ theirs mine x (.inr hx)
  · exact absurd h y

/-! ### violations -/

/-- After an import executed in another frame — in a function that the block calls, or by another thread — or one that failed and was caught, nothing more is sent to the engines: whatever comes before
and after it, the requests of the block are those of the part before it. -/
theorem lost_violated (c : Cfg) (v f : Nat) (pre post : List Act) (i : Stmt) (g : Nat) (nested : List Act) (e : Err) (s : St) (a : Act)
    (ha : (∃ fails caught, g ≠ f ∧ a = .imp i g nested fails caught) ∨ a = .imp i g nested (some e) true) :
    requests s.next (exec c (.block v f (pre ++ a :: post) false) s).1 = requests s.next (exec c (.block v f pre false) s).1 := by
  simp only [exec_block]
  show requests s.next (execAll c (pre ++ a :: post) (entered v f s)).1 = requests s.next (execAll c pre (entered v f s)).1
  rw [execAll_append]
  have hpre := execAll_ext c pre (entered v f s)
  cases hx : execAll c pre (entered v f s) with
  | mk s1 e1 =>
    rw [hx] at hpre
    cases e1 with
    | some e1 => rfl
    | none =>
      simp only
      have hlt : s.next < s1.next := hpre.next
      obtain ⟨hk, hn, ⟨new, es, hnew⟩, _⟩ := inner_ext c nested i s1
      have hreq : requests s.next (inner c nested i s1).1 = requests s.next s1 := by
        unfold requests; rw [es]; exact filter_new hlt hnew
      have hstate : (exec c a s1).1 = (inner c nested i s1).1 := by
        rcases ha with ⟨fails, caught, hg, rfl⟩ | rfl
        · rw [exec_imp]
          rcases hpre.hook with y | y
          · rw [show s1.hook = Hook.view s.next v f s.hook from y]
            simp [hg]
          · rw [show s1.hook = Hook.real from y]
        · rw [exec_imp]
          have hor : ∃ e', (inner c nested i s1).2.or (some e) = some e' := by cases (inner c nested i s1).2 <;> simp
          obtain ⟨e', he'⟩ := hor
          rcases hpre.hook with y | y
          · rw [show s1.hook = Hook.view s.next v f s.hook from y]
            simp only [he']
            split <;> rfl
          · rw [show s1.hook = Hook.real from y]
      rw [execAll_cons]
      cases hxa : exec c a s1 with
      | mk s2 e2 =>
        rw [hxa] at hstate
        simp only at hstate
        cases e2 with
        | some e2 => simp only; rw [hstate, hreq]
        | none =>
          simp only
          obtain ⟨_, new2, es2, hnew2⟩ := (execAll_ext c post s2).real (hstate ▸ hk)
          have : requests s.next (execAll c post s2).1 = requests s.next s2 := by
            unfold requests; rw [es2]
            exact filter_new (Nat.lt_of_lt_of_le hlt (hstate ▸ hn)) hnew2
          rw [this, hstate, hreq]

/-- A block inside of a block of another view hides it: nothing executed in the inner block is sent to the outer block's view. -/
theorem inner_hides_outer_violated (c : Cfg) (v f : Nat) (body : List Act) (caught : Bool) (s : St) (b : Nat) (hb : b < s.next) :
    requests b (exec c (.block v f body caught) s).1 = requests b s := by
  obtain ⟨new, es, hnew⟩ := (execAll_ext c body (entered v f s)).sent
  have hnew' : ∀ r ∈ new, s.next ≤ r.block := by
    intro r hr
    rcases hnew r hr with x | ⟨_, _, _, x⟩
    · exact Nat.le_of_succ_le x
    · injection x with x; exact Nat.le_of_eq x
  simp only [exec_block]
  show requests b (execAll c body (entered v f s)).1 = _
  unfold requests
  rw [es]
  exact filter_new hb hnew'

/-- `import a.b` does not bind `a` on the engines, although it does locally. -/
theorem dotted_unbound_violated (w : World) (a rest : Name) (ha : '.' ∉ a) (ns : Name → Option Nat) :
    (remoteImport w { name := a ++ '.' :: rest } ns).1 a = ns a ∧ localImport w { name := a ++ '.' :: rest } ns a = w.mods a := by
  have htop : topName (a ++ '.' :: rest) = a := by
    unfold topName
    rw [List.takeWhile_append_of_pos (fun x hx => by simp; exact fun e => ha (e ▸ hx))]
    simp
  have hne : a ≠ a ++ '.' :: rest := fun e => by
    have := congrArg List.length e
    simp at this
  refine ⟨?_, ?_⟩
  · unfold remoteImport
    split
    · rfl
    · simp [hne]
  · simp [localImport, Stmt.binds, Stmt.value, htop]

/-- `from m import *` always fails remotely: the block raises, on every engine that does not lack the module as well as on those that do. -/
theorem star_fails_violated (c : Cfg) (v f : Nat) (body : List Act) (s : St) (hs : ∀ r ∈ s.sent, r.block < s.next) (hd : ∀ a ∈ body, Direct f a)
    (m : Name) (hi : { name := m, fromlist := [['*']] } ∈ firsts (body.filterMap Act.stmt)) (w : World) (hw : w ∈ c.engines v) (hattr : ∀ o, w.attr o ['*'] = none) :
    (exec c (.block v f body false) s).2 ≠ none := by
  refine remote_failure_raised c v f body s hs hd _ hi w hw (fun _ => none) ?_
  unfold remoteImport
  split
  · rfl
  · simp [bindAll, hattr]

/-! ### examples -/

private def w0 : World := { mods := fun n => if n = ['a'] then some 1 else if n = ['b'] then some 2 else none, attr := fun o x => if x = ['x'] then some (10 * o) else none }
private def c0 : Cfg := { engines := fun _ => [w0] }
private def ia : Stmt := { name := ['a'] }
private def iax : Stmt := { name := ['a'], fromlist := [['x']] }
private def ibx : Stmt := { name := ['b'], fromlist := [['x']] }

/-- a block `import a` (whose module imports `b` itself), `from a import x`, `import a` -/
private def body0 : List Act := [.imp ia 7 [.imp ibx 9 [] none false] none false, .imp iax 7 [] none false, .imp ia 7 [] none false]

/-- the hypotheses of `forwarded_partial` are met; `b` is not sent, `a` is sent once -/
example : requests 0 (exec c0 (.block 3 7 body0 false) {}).1 = [⟨0, 3, ia⟩, ⟨0, 3, iax⟩] ∧ (exec c0 (.block 3 7 body0 false) {}).2 = none ∧ (∀ a ∈ body0, Direct 7 a) := by
  refine ⟨by decide +kernel, by decide +kernel, ?_⟩
  intro a ha
  simp only [body0, List.mem_cons, List.not_mem_nil, or_false] at ha
  rcases ha with rfl | rfl | rfl <;> exact ⟨_, _, _, rfl, by simp [Ident, ia, iax]⟩

/-- the hypotheses of `same_names_partial` are met -/
example : ([Act.imp ia 7 [] none false, .imp iax 7 [] none false].filterMap Act.stmt).Nodup ∧
    (exec c0 (.block 3 7 [.imp ia 7 [] none false, .imp iax 7 [] none false] false) {}).2 = none ∧
    runRemote w0 ((requests 0 (exec c0 (.block 3 7 [.imp ia 7 [] none false, .imp iax 7 [] none false] false) {}).1).map Req.stmt) (fun _ => none) ['x'] = some 10 := by
  decide +kernel

/-- an import inside of a called function in between: the second own import is not sent -/
example : requests 0 (exec c0 (.block 3 7 [.imp ia 7 [] none false, .imp ibx 8 [] none false, .imp iax 7 [] none false] false) {}).1 = [⟨0, 3, ia⟩] := by decide +kernel

/-- a missing module on the engine is reported at the end of the block -/
example : (exec c0 (.block 3 7 [.imp { name := ['q'] } 7 [] none false] false) {}).2 = some .remote := by decide +kernel

/-- A statement executed again is not sent again: after `from a import x`, `from b import x`, `from a import x` the name is `b`'s on the engines and `a`'s locally. -/
theorem repeated_stale_violated : ∃ (c : Cfg) (body : List Act) (w : World), (∀ a ∈ body, Direct 7 a) ∧ w ∈ c.engines 3 ∧ (exec c (.block 3 7 body false) {}).2 = none ∧
    (∃ i ∈ body.filterMap Act.stmt, ['x'] ∈ i.binds) ∧
    runRemote w ((requests 0 (exec c (.block 3 7 body false) {}).1).map Req.stmt) (fun _ => none) ['x'] = some 20 ∧
    runLocal w (body.filterMap Act.stmt) (fun _ => none) ['x'] = some 10 := by
  refine ⟨c0, [.imp iax 7 [] none false, .imp ibx 7 [] none false, .imp iax 7 [] none false], w0, ?_, by simp [c0], by decide +kernel, ⟨iax, by simp [Act.stmt], by decide⟩, by decide +kernel, by decide +kernel⟩
  intro a ha
  simp only [List.mem_cons, List.not_mem_nil, or_false] at ha
  rcases ha with rfl | rfl | rfl <;> exact ⟨_, _, _, rfl, by simp [Ident, ibx, iax]⟩

end IPP.Imports
