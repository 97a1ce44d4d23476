import Verif.View.Imports
/-!
# C84: theorems about `view.sync_imports()`
-/
namespace IPP.Imports

/-- what an execution can do to the state -/
structure Ext (s s' : St) : Prop where
  hook : s'.hook = s.hook ∨ s'.hook = .real
  next : s.next ≤ s'.next
  sent : ∃ new, s'.sent = s.sent ++ new ∧ ∀ r ∈ new, s.next ≤ r.block ∨ ∃ v c p, s.hook = .view r.block v c p
  log : ∃ new, s'.log = s.log ++ new

theorem Ext.refl (s : St) : Ext s s := ⟨.inl rfl, Nat.le_refl _, ⟨[], by simp⟩, ⟨[], by simp⟩⟩

theorem Ext.trans {s t u : St} (h : Ext s t) (g : Ext t u) : Ext s u := by
  obtain ⟨n1, e1, f1⟩ := h.sent
  obtain ⟨n2, e2, f2⟩ := g.sent
  obtain ⟨l1, k1⟩ := h.log
  obtain ⟨l2, k2⟩ := g.log
  refine ⟨?_, Nat.le_trans h.next g.next, ⟨n1 ++ n2, by rw [e2, e1, List.append_assoc], ?_⟩, ⟨l1 ++ l2, by rw [k2, k1, List.append_assoc]⟩⟩
  · rcases g.hook with x | x
    · rcases h.hook with y | y
      · exact .inl (x.trans y)
      · exact .inr (x.trans y)
    · exact .inr x
  · intro r hr
    rcases List.mem_append.1 hr with hr | hr
    · exact f1 r hr
    · rcases f2 r hr with x | ⟨v, c, p, x⟩
      · exact .inl (Nat.le_trans h.next x)
      · rcases h.hook with y | y
        · exact .inr ⟨v, c, p, y ▸ x⟩
        · rw [y] at x; cases x

/-- from the real `__import__`, the real one remains and no older block sends anything -/
theorem Ext.real {s s' : St} (h : Ext s s') (hr : s.hook = .real) : s'.hook = .real ∧ ∃ new, s'.sent = s.sent ++ new ∧ ∀ r ∈ new, s.next ≤ r.block := by
  refine ⟨h.hook.elim (fun x => x.trans hr) id, ?_⟩
  obtain ⟨n, e, f⟩ := h.sent
  refine ⟨n, e, fun r hm => (f r hm).elim id ?_⟩
  rintro ⟨v, c, p, x⟩
  rw [hr] at x; cases x

theorem through_real (nested : St → St × Option Err) (fails : Option Err) (i : Stmt) (f : Option Nat) (s : St) :
    through nested fails i .real f s = ((nested { s with log := s.log ++ [i] }).1, (nested { s with log := s.log ++ [i] }).2.or fails) := rfl

theorem through_view (nested : St → St × Option Err) (fails : Option Err) (i : Stmt) (b v ctx : Nat) (prev : Hook) (f : Option Nat) (s : St) :
    through nested fails i (.view b v ctx prev) f s =
      if f ≠ some ctx then through nested fails i prev none { s with hook := prev }
      else match through nested fails i prev none { s with hook := prev } with
        | (s', some e) => (s', some e)
        | (s', none) => ({ (if i.level = 0 ∧ s'.fresh b i = true then { s' with sent := s'.sent ++ [⟨b, v, i⟩] } else s') with hook := s.hook }, none) := rfl

/-- the hook below all blocks -/
def bot : Hook → Hook → Hook
  | .real, k => k
  | .view _ _ _ _, _ => .real

theorem through_none (nested : St → St × Option Err) (fails : Option Err) (i : Stmt) : ∀ (h : Hook) (s : St),
    through nested fails i h none s = ((nested { s with hook := bot h s.hook, log := s.log ++ [i] }).1, (nested { s with hook := bot h s.hook, log := s.log ++ [i] }).2.or fails)
  | .real, s => rfl
  | .view b v c p, s => by
    rw [through]
    simp only [ne_eq, reduceCtorEq, not_false_eq_true, if_true]
    rw [through_none nested fails i p]
    cases p <;> rfl

/-- the result of the module's import, with the real `__import__` in place -/
def inner (c : Cfg) (nested : List Act) (i : Stmt) (s : St) : St × Option Err := execAll c nested { s with hook := .real, log := s.log ++ [i] }

/-- an import statement, by what `__import__` is -/
theorem exec_imp (c : Cfg) (i : Stmt) (f : Nat) (nested : List Act) (fails : Option Err) (caught : Bool) (s : St) :
    exec c (.imp i f nested fails caught) s =
      match s.hook with
      | .real => ((inner c nested i s).1, if caught then none else (inner c nested i s).2.or fails)
      | .view b v ctx p =>
        if f ≠ ctx then ((inner c nested i s).1, if caught then none else (inner c nested i s).2.or fails)
        else match (inner c nested i s).2.or fails with
          | some e => ((inner c nested i s).1, if caught then none else some e)
          | none => ({ (if i.level = 0 ∧ (inner c nested i s).1.fresh b i = true then { (inner c nested i s).1 with sent := (inner c nested i s).1.sent ++ [⟨b, v, i⟩] }
              else (inner c nested i s).1) with hook := s.hook }, none) := by
  rw [exec]
  cases hh : s.hook with
  | real =>
    have e : ({ s with log := s.log ++ [i] } : St) = { s with hook := .real, log := s.log ++ [i] } := by rw [← hh]
    simp only [hh, through_real, inner, e]
  | view b v ctx p =>
    simp only [hh, through_view, through_none]
    have e : ({ hook := bot p p, next := s.next, sent := s.sent, log := s.log ++ [i] } : St) = { s with hook := .real, log := s.log ++ [i] } := by cases p <;> rfl
    by_cases hf : f = ctx
    · subst hf
      simp only [ne_eq, not_true, if_false, e]
      unfold inner
      cases (execAll c nested { s with hook := .real, log := s.log ++ [i] }).2.or fails <;> simp [hh]
    · simp [hf, e, inner]

theorem execAll_cons (c : Cfg) (a : Act) (l : List Act) (s : St) :
    execAll c (a :: l) s = match exec c a s with
      | (s, some e) => (s, some e)
      | (s, none) => execAll c l s := by rw [execAll]; rfl

mutual
theorem exec_ext (c : Cfg) : ∀ (a : Act) (s : St), Ext s (exec c a s).1
  | .raise e, s => by rw [exec]; exact Ext.refl s
  | .block v f body caught, s => by
    rw [exec]
    have h := execAll_ext c body { s with hook := .view s.next v f s.hook, next := s.next + 1 }
    obtain ⟨n, e, g⟩ := h.sent
    refine ⟨.inl rfl, Nat.le_trans (Nat.le_succ _) h.next, ⟨n, e, fun r hr => .inl ?_⟩, h.log⟩
    rcases g r hr with x | ⟨_, _, _, x⟩
    · exact Nat.le_of_succ_le x
    · injection x with x; exact Nat.le_of_eq x
  | .imp i f nested fails caught, s => by
    have h := execAll_ext c nested { s with hook := .real, log := s.log ++ [i] }
    have hi : Ext s (inner c nested i s).1 := by
      obtain ⟨hk, n, e, g⟩ := h.real rfl
      obtain ⟨l, el⟩ := h.log
      exact ⟨.inr hk, h.next, ⟨n, e, fun r hr => .inl (g r hr)⟩, ⟨[i] ++ l, by simp only [inner]; rw [el]; simp⟩⟩
    rw [exec_imp]
    split
    · exact hi
    · rename_i b v ctx p hh
      split
      · exact hi
      · split
        · exact hi
        · split
          · obtain ⟨n, e, g⟩ := hi.sent
            refine ⟨.inl rfl, hi.next, ⟨n ++ [⟨b, v, i⟩], by simp [e], fun r hr => ?_⟩, hi.log⟩
            rcases List.mem_append.1 hr with hr | hr
            · exact g r hr
            · rw [List.mem_singleton] at hr; subst hr; exact .inr ⟨v, ctx, p, hh⟩
          · exact ⟨.inl rfl, hi.next, hi.sent, hi.log⟩

theorem execAll_ext (c : Cfg) : ∀ (l : List Act) (s : St), Ext s (execAll c l s).1
  | [], s => by rw [execAll]; exact Ext.refl s
  | a :: l, s => by
    have h := exec_ext c a s
    cases hx : exec c a s with
    | mk s' e =>
      rw [execAll_cons, hx]
      rw [hx] at h
      cases e with
      | some e => exact h
      | none => exact h.trans (execAll_ext c l s')
end

theorem execAll_append (c : Cfg) : ∀ (l₁ l₂ : List Act) (s : St), execAll c (l₁ ++ l₂) s = match execAll c l₁ s with
      | (s, some e) => (s, some e)
      | (s, none) => execAll c l₂ s
  | [], l₂, s => by simp [execAll]
  | a :: l, l₂, s => by
    rw [List.cons_append, execAll_cons, execAll_cons]
    cases hx : exec c a s with
    | mk s' e =>
      cases e with
      | some e => rfl
      | none => exact execAll_append c l l₂ s'

/-! ### specification -/

/-- the requests of a block -/
def requests (b : Nat) (s : St) : List Req := s.sent.filter (fun r => r.block = b)

/-- a statement of the source language: no colon in the module's name, names after `from … import` are not empty and have no comma -/
def Ident (i : Stmt) : Prop := ':' ∉ i.name ∧ ∀ x ∈ i.fromlist, x ≠ [] ∧ ',' ∉ x

/-- the statement, of an import -/
def Act.stmt : Act → Option Stmt
  | .imp i _ _ _ _ => some i
  | _ => none

/-- an import statement in the block itself, not inside of a `try` -/
def Direct (f : Nat) (a : Act) : Prop := ∃ i nested fails, a = .imp i f nested fails false ∧ Ident i

/-- absolute imports, each once, in the order of their first occurrence -/
def firsts (l : List Stmt) : List Stmt := (l.filter (fun i => i.level = 0)).eraseDups

/-! ### keys -/

theorem joinComma_inj : ∀ (l k : List Name), (∀ x ∈ l, x ≠ [] ∧ ',' ∉ x) → (∀ x ∈ k, x ≠ [] ∧ ',' ∉ x) → joinComma l = joinComma k → l = k := by
  have cut : ∀ (x y r t : List Char), ',' ∉ x → ',' ∉ y → x ++ ',' :: r = y ++ ',' :: t → x = y ∧ r = t := by
    intro x
    induction x with
    | nil =>
      intro y r t _ hy h
      cases y with
      | nil => simpa using h
      | cons b y => simp at h; exact absurd h.1 (fun e => hy (by rw [← e]; exact List.mem_cons_self))
    | cons a x ih =>
      intro y r t hx hy h
      cases y with
      | nil => simp at h; exact absurd h.1 (fun e => hx (by rw [e]; exact List.mem_cons_self))
      | cons b y =>
        simp only [List.cons_append, List.cons.injEq] at h
        obtain ⟨e1, e2⟩ := ih y r t (fun m => hx (List.mem_cons_of_mem _ m)) (fun m => hy (List.mem_cons_of_mem _ m)) h.2
        exact ⟨by rw [h.1, e1], e2⟩
  have mem : ∀ (x y : List Name) (a b : Name), ',' ∈ joinComma (a :: b :: x) := by
    intro x y a b
    simp [joinComma]
  intro l
  induction l with
  | nil =>
    intro k _ hk h
    cases k with
    | nil => rfl
    | cons a k =>
      cases k with
      | nil => exact absurd h.symm (hk a List.mem_cons_self).1
      | cons b k => simp [joinComma] at h
  | cons a l ih =>
    intro k hl hk h
    cases k with
    | nil =>
      cases l with
      | nil => exact absurd h (hl a List.mem_cons_self).1
      | cons b l => simp [joinComma] at h
    | cons b k =>
      cases l with
      | nil =>
        cases k with
        | nil => simp only [joinComma] at h; rw [h]
        | cons d k =>
          have := mem k k b d
          rw [← h] at this
          exact absurd this (hl a List.mem_cons_self).2
      | cons d l =>
        cases k with
        | nil =>
          have := mem l l a d
          rw [h] at this
          exact absurd this (hk b List.mem_cons_self).2
        | cons e k =>
          simp only [joinComma] at h
          obtain ⟨h1, h2⟩ := cut _ _ _ _ (hl a List.mem_cons_self).2 (hk b List.mem_cons_self).2 h
          rw [h1, ih (e :: k) (fun x m => hl x (List.mem_cons_of_mem _ m)) (fun x m => hk x (List.mem_cons_of_mem _ m)) h2]

theorem key_inj {i j : Stmt} (hi : Ident i) (hj : Ident j) (h : key i = key j) : i.name = j.name ∧ i.fromlist = j.fromlist := by
  have cut : ∀ (x y r t : List Char), ':' ∉ x → ':' ∉ y → x ++ ':' :: r = y ++ ':' :: t → x = y ∧ r = t := by
    intro x
    induction x with
    | nil =>
      intro y r t _ hy h
      cases y with
      | nil => simpa using h
      | cons b y => simp at h; exact absurd h.1 (fun e => hy (by rw [← e]; exact List.mem_cons_self))
    | cons a x ih =>
      intro y r t hx hy h
      cases y with
      | nil => simp at h; exact absurd h.1 (fun e => hx (by rw [e]; exact List.mem_cons_self))
      | cons b y =>
        simp only [List.cons_append, List.cons.injEq] at h
        obtain ⟨e1, e2⟩ := ih y r t (fun m => hx (List.mem_cons_of_mem _ m)) (fun m => hy (List.mem_cons_of_mem _ m)) h.2
        exact ⟨by rw [h.1, e1], e2⟩
  obtain ⟨h1, h2⟩ := cut _ _ _ _ hi.1 hj.1 h
  exact ⟨h1, joinComma_inj _ _ hi.2 hj.2 h2⟩

theorem firsts_snoc (l : List Stmt) (i : Stmt) : firsts (l ++ [i]) = if i.level = 0 ∧ i ∉ firsts l then firsts l ++ [i] else firsts l := by
  unfold firsts
  rw [List.filter_append, List.eraseDups_append]
  by_cases h0 : i.level = 0
  · by_cases hm : i ∈ l.filter (fun i => i.level = 0)
    · rw [if_neg (by simp [List.mem_eraseDups, hm])]
      simp only [List.filter_cons, h0, decide_true, if_true, List.filter_nil, List.removeAll]
      simp [h0] at hm ⊢
      simp [hm]
    · rw [if_pos ⟨h0, by simpa [List.mem_eraseDups] using hm⟩]
      simp only [List.filter_cons, h0, decide_true, if_true, List.filter_nil, List.removeAll]
      have : i ∉ l := fun m => hm (List.mem_filter.2 ⟨m, by simp [h0]⟩)
      simp [this, List.eraseDups_cons]
  · rw [if_neg (fun h => h0 h.1)]
    simp [List.filter_cons, h0, List.removeAll]

/-! ### the block -/

theorem filter_new {b n : Nat} {old new : List Req} (hb : b < n) (h : ∀ r ∈ new, n ≤ r.block) : (old ++ new).filter (fun r => r.block = b) = old.filter (fun r => r.block = b) := by
  rw [List.filter_append]
  have : new.filter (fun r => r.block = b) = [] := by
    rw [List.filter_eq_nil_iff]
    intro r hr
    have := h r hr
    simp; omega
  rw [this, List.append_nil]

theorem inner_ext (c : Cfg) (nested : List Act) (i : Stmt) (s : St) :
    (inner c nested i s).1.hook = .real ∧ s.next ≤ (inner c nested i s).1.next ∧ (∃ new, (inner c nested i s).1.sent = s.sent ++ new ∧ ∀ r ∈ new, s.next ≤ r.block) ∧
      ∃ l, (inner c nested i s).1.log = s.log ++ i :: l := by
  have h := execAll_ext c nested { s with hook := .real, log := s.log ++ [i] }
  obtain ⟨hk, n, e, g⟩ := h.real rfl
  obtain ⟨l, el⟩ := h.log
  exact ⟨hk, h.next, ⟨n, e, g⟩, l, by simp only [inner]; rw [el]; simp⟩

theorem run_direct (c : Cfg) (b v f : Nat) (p : Hook) : ∀ (body : List Act) (s : St) (D : List Stmt), (∀ a ∈ body, Direct f a) → (∀ i ∈ D, Ident i) →
    s.hook = .view b v f p → b < s.next → requests b s = (firsts D).map (fun i => ⟨b, v, i⟩) →
    ∃ done rest, body = done ++ rest ∧ requests b (execAll c body s).1 = (firsts (D ++ done.filterMap Act.stmt)).map (fun i => ⟨b, v, i⟩) ∧
      (∃ l, (execAll c body s).1.log = s.log ++ l ∧ (done.filterMap Act.stmt).Sublist l) ∧ (rest = [] ∧ (execAll c body s).2 = none ∨ rest ≠ [] ∧ (execAll c body s).2 ≠ none)
  | [], s, D, _, _, _, _, hr => ⟨[], [], rfl, by simpa [execAll] using hr, ⟨[], by simp [execAll]⟩, .inl ⟨rfl, by simp [execAll]⟩⟩
  | a :: body, s, D, hd, hD, hh, hb, hr => by
    obtain ⟨i, nested, fails, rfl, hi⟩ := hd _ List.mem_cons_self
    have hx := exec_imp c i f nested fails false s
    rw [hh] at hx
    obtain ⟨_, hn, ⟨new, es, hnew⟩, lg, el⟩ := inner_ext c nested i s
    simp only [ne_eq, not_true, if_false] at hx
    rw [execAll_cons]
    have hreq : requests b (inner c nested i s).1 = requests b s := by
      unfold requests; rw [es]; exact filter_new hb hnew
    cases he : (inner c nested i s).2.or fails with
    | some e =>
      rw [he] at hx
      rw [hx]
      refine ⟨[], _, rfl, ?_, ⟨i :: lg, el, by simp⟩, .inr ⟨by simp, by simp⟩⟩
      simp only [List.filterMap_nil, List.append_nil, Bool.false_eq_true, if_false]
      rw [hreq, hr]
    | none =>
      rw [he] at hx
      rw [hx]
      simp only
      have hfresh : (inner c nested i s).1.fresh b i = true ↔ key i ∉ (firsts D).map key := by
        have : ((inner c nested i s).1.sent.filter (fun r => decide (r.block = b))).map (fun r => key r.stmt) = (firsts D).map key := by
          have := hreq.trans hr
          unfold requests at this
          rw [this]; simp [Function.comp]
        unfold St.fresh
        rw [this]
        simp
      have hmem : i.level = 0 → (key i ∈ (firsts D).map key ↔ i ∈ firsts D) := by
        intro h0
        constructor
        · intro h
          obtain ⟨j, hj, hk⟩ := List.mem_map.1 h
          have hj' := hj
          simp only [firsts, List.mem_eraseDups, List.mem_filter, decide_eq_true_eq] at hj'
          obtain ⟨h1, h2⟩ := key_inj (hD j hj'.1) hi hk
          have : i = j := by
            cases i; cases j; simp only at h0 h1 h2 hj'; simp [h1, h2, h0, hj'.2]
          rw [this]; exact hj
        · exact fun h => List.mem_map_of_mem h
      let s1 : St := { (if i.level = 0 ∧ (inner c nested i s).1.fresh b i = true then { (inner c nested i s).1 with sent := (inner c nested i s).1.sent ++ [⟨b, v, i⟩] }
              else (inner c nested i s).1) with hook := .view b v f p }
      have hr1 : requests b s1 = (firsts (D ++ [i])).map (fun i => ⟨b, v, i⟩) := by
        rw [firsts_snoc]
        by_cases h0 : i.level = 0 ∧ i ∉ firsts D
        · have : (inner c nested i s).1.fresh b i = true := hfresh.2 (fun h => h0.2 ((hmem h0.1).1 h))
          rw [if_pos h0]
          have e : requests b s1 = requests b (inner c nested i s).1 ++ [⟨b, v, i⟩] := by
            simp only [s1, requests, h0.1, this, and_self, if_true, List.filter_append]
            simp
          rw [e, hreq, hr]; simp
        · rw [if_neg h0]
          have e : requests b s1 = requests b (inner c nested i s).1 := by
            have : ¬(i.level = 0 ∧ (inner c nested i s).1.fresh b i = true) := fun h => h0 ⟨h.1, fun hm => (hfresh.1 h.2) ((hmem h.1).2 hm)⟩
            simp only [s1, requests, if_neg this]
          rw [e, hreq, hr]
      have hn1 : b < s1.next := by
        have : s1.next = (inner c nested i s).1.next := by simp only [s1]; split <;> rfl
        rw [this]; exact Nat.lt_of_lt_of_le hb hn
      have el1 : s1.log = s.log ++ i :: lg := by
        have : s1.log = (inner c nested i s).1.log := by simp only [s1]; split <;> rfl
        rw [this, el]
      have hD1 : ∀ j ∈ D ++ [i], Ident j := by
        intro j hj
        rcases List.mem_append.1 hj with hj | hj
        · exact hD j hj
        · rw [List.mem_singleton] at hj; subst hj; exact hi
      obtain ⟨done, rest, e1, e2, ⟨l, e3, e4⟩, e5⟩ := run_direct c b v f p body s1 (D ++ [i]) (fun a ha => hd a (List.mem_cons_of_mem _ ha)) hD1 rfl hn1 hr1
      have hs1 : s1 = { (if i.level = 0 ∧ (inner c nested i s).1.fresh b i = true then { (inner c nested i s).1 with sent := (inner c nested i s).1.sent ++ [⟨b, v, i⟩] }
              else (inner c nested i s).1) with hook := s.hook } := by simp only [s1, hh]
      refine ⟨.imp i f nested fails false :: done, rest, by rw [e1, List.cons_append], ?_, ⟨i :: lg ++ l, ?_, ?_⟩, ?_⟩
      · rw [← hh, ← hs1]; simpa [Act.stmt] using e2
      · rw [← hh, ← hs1, e3, el1]; simp
      · simp only [List.filterMap_cons, Act.stmt, List.cons_append]
        exact (List.Sublist.trans e4 (List.sublist_append_right lg l)).cons₂ i
      · rw [← hh, ← hs1]; exact e5

end IPP.Imports
