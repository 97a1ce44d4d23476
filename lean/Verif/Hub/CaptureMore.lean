import Verif.Hub.CaptureProps
/-!
# Output captured by the hub (C59): output does not disturb the rest of a record; records made by output alone escape the limits
-/
namespace IPP.Capture

open IPP.DB

/-! ### the rest of the record -/

/-- the record of `m` in the presence (`a`) and in the absence (`b`) of output -/
def Rel (m : Id) : Option Rec → Option Rec → Prop
  | some r, some r' => ∀ k, k ∉ outKeys → r.get k = r'.get k
  | some r, none => ∀ k, k ∉ outKeys → r.get k = (emptyRecord m).get k
  | none, none => True
  | none, some _ => False

theorem mem_keys_merge (k : Kind) (e r : Rec) (key : Key) :
    (∃ kv ∈ merge k e r, kv.1 = key) ↔ (skipped k key = false ∧ truthy (e.get key) = true ∧ truthy (r.get key) = false) ∨ key ∈ r.map Prod.fst := by
  unfold merge
  constructor
  · rintro ⟨kv, hkv, rfl⟩
    rcases List.mem_append.1 hkv with hx | hx
    · rcases List.mem_filterMap.1 hx with ⟨y, -, hs⟩
      split at hs
      · rename_i hb
        cases hs
        exact .inl (by simpa [Bool.not_eq_true] using hb)
      · cases hs
    · exact .inr (List.mem_map.2 ⟨kv, hx, rfl⟩)
  · rintro (h | h)
    · have hmem : key ∈ e.map Prod.fst := Classical.byContradiction fun hx => by
        rw [get_not_mem hx] at h
        simp [truthy] at h
      rcases List.mem_map.1 hmem with ⟨kv, hkv, rfl⟩
      refine ⟨(kv.1, e.get kv.1), List.mem_append_left _ (List.mem_filterMap.2 ⟨kv, hkv, ?_⟩), rfl⟩
      rw [if_pos (by simpa [Bool.not_eq_true] using h)]
    · rcases List.mem_map.1 h with ⟨kv, hkv, rfl⟩
      exact ⟨kv, List.mem_append_right _ hkv, rfl⟩

theorem mem_keys_pop (k : Kind) (e r : Rec) (key : Key) :
    key ∈ (resubmitPop k e r).map Prod.fst ↔ key ∈ r.map Prod.fst ∧ ¬ (k = .task ∧ truthy (e.get "resubmitted") = true ∧ key ∈ ["submitted", "client_uuid", "buffers"]) := by
  cases k with
  | mux u => simp [resubmitPop]
  | task =>
    by_cases h : truthy (e.get "resubmitted") = true
    · simp only [resubmitPop, h, if_true, true_and]
      constructor
      · intro hx
        rcases List.mem_map.1 hx with ⟨kv, hkv, rfl⟩
        have := List.mem_filter.1 hkv
        exact ⟨List.mem_map.2 ⟨kv, this.1, rfl⟩, by simpa using this.2⟩
      · rintro ⟨hx, hy⟩
        rcases List.mem_map.1 hx with ⟨kv, hkv, rfl⟩
        exact List.mem_map.2 ⟨kv, List.mem_filter.2 ⟨hkv, by simpa using hy⟩, rfl⟩
    · simp [resubmitPop, h]

/-- a field of the merged record depends on the old record only through that field and `resubmitted` -/
theorem merged_congr (k : Kind) (m : Id) (q : Req) (e e' : Rec) (key : Key) (h1 : e.get key = e'.get key) (h2 : e.get "resubmitted" = e'.get "resubmitted") :
    (merge k e (resubmitPop k e (initRecord k m q)) ++ e).get key = (merge k e' (resubmitPop k e' (initRecord k m q)) ++ e').get key := by
  have hp : (resubmitPop k e (initRecord k m q)).get key = (resubmitPop k e' (initRecord k m q)).get key := by rw [get_pop, get_pop, h2]
  have hm : (key ∈ (resubmitPop k e (initRecord k m q)).map Prod.fst) ↔ (key ∈ (resubmitPop k e' (initRecord k m q)).map Prod.fst) := by
    rw [mem_keys_pop, mem_keys_pop, h2]
  rw [get_app, get_app]
  simp only [mem_keys_merge, get_merge, hp, hm, h1]

/-- a request merged into a record that only output has made is the request -/
theorem merged_empty (k : Kind) (m : Id) (q : Req) (e : Rec) (key : Key) (h : ∀ x, x ∉ outKeys → e.get x = (emptyRecord m).get x) (hk : key ∉ outKeys) :
    (merge k e (resubmitPop k e (initRecord k m q)) ++ e).get key = (initRecord k m q).get key := by
  have hr : e.get "resubmitted" = .null := by rw [h _ (by simp [outKeys])]; rfl
  have hpop : resubmitPop k e (initRecord k m q) = initRecord k m q := by
    cases k with
    | mux u => rfl
    | task => simp [resubmitPop, hr, truthy]
  rw [hpop, get_app]
  by_cases hid : key = "msg_id"
  · subst hid
    have hmem : ∃ kv ∈ merge k e (initRecord k m q), kv.1 = "msg_id" := (mem_keys_merge ..).2 (.inr (by simp [initRecord]))
    rw [if_pos hmem, get_merge, h _ hk]
    show (if _ then Val.text m else Val.text m) = Val.text m
    simp
  · have hf : truthy (e.get key) = false := by
      rw [h key hk]
      by_cases hin : key ∈ (emptyRecord m).map Prod.fst
      · simp only [emptyRecord, List.map_cons, List.map_nil, List.mem_cons, List.not_mem_nil, or_false] at hin
        simp only [outKeys, List.mem_cons, List.not_mem_nil, or_false] at hk
        rcases hin with rfl | rfl | rfl | rfl | rfl | rfl | rfl | rfl | rfl | rfl | rfl | rfl | rfl | rfl | rfl | rfl | rfl | rfl | rfl | rfl | rfl | rfl | rfl
        all_goals first | rfl | (exact absurd rfl hid) | (simp at hk)
      · rw [get_not_mem hin]; rfl
    have hn : ¬ (skipped k key = false ∧ truthy (e.get key) = true ∧ truthy ((initRecord k m q).get key) = false) := by simp [hf]
    rw [get_merge, if_neg hn]
    split
    · rfl
    · rename_i hx
      rw [mem_keys_merge] at hx
      have hnin : key ∉ (initRecord k m q).map Prod.fst := fun h' => hx (.inr h')
      rw [get_not_mem hnin, h key hk]
      apply get_not_mem
      simpa [initRecord, emptyRecord] using hnin

theorem get_app_congr (d a b : Rec) (key : Key) (h : a.get key = b.get key) : (d ++ a).get key = (d ++ b).get key := by
  rw [get_app, get_app, h]

theorem out_frame (old : Option Rec) (o : Out) (r : Rec) (key : Key) (hk : key ∉ outKeys) : (outFields old o ++ r).get key = r.get key := by
  rw [get_app, if_neg]
  rintro ⟨kv, hkv, rfl⟩
  exact hk (out_keys old o kv hkv)

/-- output keeps the relation -/
theorem rel_out (m : Id) (p d : Bool) {a b : Option Rec} (h : Rel m a b) (m' : Id) (o : Out) : Rel m (recStep m p d a (.iopub m' o)) b := by
  simp only [recStep]
  split
  · cases a with
    | none =>
      cases b with
      | none => intro k hk; rw [out_frame _ _ _ _ hk]; rfl
      | some r' => exact h.elim
    | some r =>
      cases b with
      | none => intro k hk; rw [out_frame _ _ _ _ hk]; exact h k hk
      | some r' => intro k hk; rw [out_frame _ _ _ _ hk]; exact h k hk
  · exact h

/-- any other event keeps it, given that replies and destinations concern requested tasks -/
theorem rel_other (m : Id) (p d : Bool) {a b : Option Rec} (h : Rel m a b) (e : CEv) (ho : ∀ m' o, e ≠ .iopub m' o) (hp : e ≠ .purge m)
    (hpd : p = true ∨ d = true → b.isSome) (hdest : ∀ u, e = .destination m u → b.isSome) : Rel m (recStep m p d a e) (recStep m p d b e) := by
  cases e with
  | iopub m' o => exact absurd rfl (ho m' o)
  | purge m' =>
    simp only [recStep]
    have hne : ¬ m' = m := by rintro rfl; exact hp rfl
    simpa [hne] using h
  | request k m' q =>
    simp only [recStep]
    split
    · cases a with
      | none =>
        cases b with
        | none => intro k hk; rfl
        | some r' => exact h.elim
      | some r =>
        cases b with
        | none => intro key hk; exact merged_empty k m q r key h hk
        | some r' => intro key hk; exact merged_congr k m q r r' key (h key hk) (h _ (by simp [outKeys]))
    · exact h
  | result k m' r =>
    simp only [recStep]
    split
    · rename_i hx
      have hb : b.isSome := hpd (by
        rcases hx.2 with h | h
        · exact .inl h
        · exact .inr h.2)
      cases b with
      | none => cases hb
      | some r' =>
        cases a with
        | none => exact h.elim
        | some r0 => intro key hk; exact get_app_congr _ _ _ _ (h key hk)
    · exact h
  | destination m' u =>
    simp only [recStep]
    split
    · rename_i hx
      subst hx
      have hb := hdest u rfl
      cases b with
      | none => cases hb
      | some r' =>
        cases a with
        | none => exact h.elim
        | some r0 => intro key hk; exact get_app_congr _ _ _ _ (h key hk)
    · exact h

/-! the tables do not depend on the output -/

theorem tables_step (c : Cfg) {s t : CHub} (h1 : s.pending = t.pending) (h2 : s.done = t.done) (e : CEv) :
    (cstep c s e).pending = (cstep c t e).pending ∧ (cstep c s e).done = (cstep c t e).done := by
  cases e with
  | request k m q => simp [cstep, request, h1, h2]
  | result k m r =>
    simp only [cstep, result, h1, h2]
    split
    · simp
    · cases k with
      | mux u => simp only; split <;> simp [h1, h2]
      | task => simp [h1, h2]
  | destination m u => simp [cstep, destination, h1, h2]
  | iopub m o =>
    have : ∀ s : CHub, (iopub c s m o).pending = s.pending ∧ (iopub c s m o).done = s.done := by
      intro s
      unfold iopub
      simp only
      split
      · exact ⟨rfl, rfl⟩
      · split <;> exact ⟨rfl, rfl⟩
    simp [cstep, this, h1, h2]
  | purge m =>
    simp only [cstep, purge, h1]
    split <;> simp [h1, h2]

theorem tables_out (c : Cfg) (s : CHub) (m : Id) (o : Out) : (cstep c s (.iopub m o)).pending = s.pending ∧ (cstep c s (.iopub m o)).done = s.done := by
  simp only [cstep, iopub]
  split
  · exact ⟨rfl, rfl⟩
  · split <;> exact ⟨rfl, rfl⟩

theorem silent_snoc_out (evs : List CEv) (m : Id) (o : Out) : silent (evs ++ [.iopub m o]) = silent evs := by simp [silent]

theorem silent_snoc (evs : List CEv) (e : CEv) (h : ∀ m o, e ≠ .iopub m o) : silent (evs ++ [e]) = silent evs ++ [e] := by
  cases e with
  | iopub m o => exact absurd rfl (h m o)
  | _ => simp [silent]

theorem tables_silent (c : Cfg) (evs : List CEv) : (crun c evs).pending = (crun c (silent evs)).pending ∧ (crun c evs).done = (crun c (silent evs)).done := by
  refine snoc_ind (P := fun evs => (crun c evs).pending = (crun c (silent evs)).pending ∧ (crun c evs).done = (crun c (silent evs)).done) ?_ ?_ evs
  · exact ⟨rfl, rfl⟩
  · intro evs e ih
    by_cases he : ∃ m o, e = .iopub m o
    · rcases he with ⟨m, o, rfl⟩
      rw [crun_snoc, silent_snoc_out]
      have := tables_out c (crun c evs) m o
      rw [this.1, this.2]
      exact ih
    · have he' : ∀ m o, e ≠ .iopub m o := fun m o h => he ⟨m, o, h⟩
      rw [silent_snoc evs e he', crun_snoc, crun_snoc]
      exact tables_step c ih.1 ih.2 e

/-- The scheduler reports where a task runs only after the request was seen. -/
def DestOrdered (m : Id) (evs : List CEv) : Prop := ∀ pre u post, evs = pre ++ .destination m u :: post → ∃ e ∈ pre, e.isRequest m = true

theorem known_requested (c : Cfg) (m : Id) (evs : List CEv) : m ∈ (crun c evs).pending ∨ m ∈ (crun c evs).done → ∃ e ∈ evs, e.isRequest m = true := by
  refine snoc_ind (P := fun evs => m ∈ (crun c evs).pending ∨ m ∈ (crun c evs).done → ∃ e ∈ evs, e.isRequest m = true) ?_ ?_ evs
  · rintro (h | h) <;> cases h
  · intro evs e ih h
    have back : (m ∈ (crun c evs).pending ∨ m ∈ (crun c evs).done) → ∃ x ∈ evs ++ [e], x.isRequest m = true := by
      intro hx
      rcases ih hx with ⟨x, hx, hy⟩
      exact ⟨x, List.mem_append_left _ hx, hy⟩
    rw [crun_snoc] at h
    cases e with
    | request k m' q =>
      by_cases e : m' = m
      · exact ⟨.request k m' q, by simp, by simp [CEv.isRequest, e]⟩
      · apply back
        have e' : ¬ m = m' := fun x => e x.symm
        simp only [cstep, request] at h
        rcases h with h | h
        · left
          split at h
          · exact h
          · simpa [e'] using h
        · exact .inr h
    | result k m' r =>
      apply back
      simp only [cstep, result] at h
      split at h
      · rename_i hp
        simp only [List.mem_filter] at h
        rcases h with h | h
        · exact .inl h.1
        · split at h
          · exact .inr h
          · rcases List.mem_append.1 h with h | h
            · exact .inr h
            · rw [List.mem_singleton] at h
              subst h
              exact .inl hp
      · cases k with
        | mux u =>
          simp only at h
          split at h <;> exact h
        | task => exact h
    | destination m' u => exact back h
    | iopub m' o =>
      apply back
      have := tables_out c (crun c evs) m' o
      rw [this.1, this.2] at h
      exact h
    | purge m' =>
      apply back
      simp only [cstep, purge] at h
      split at h <;> exact h

theorem requested_look (c : Cfg) (m : Id) (evs : List CEv) (hp : NoPurge m evs) (hm : m ∉ (crun c evs).db.culled) (h : ∃ e ∈ evs, e.isRequest m = true) :
    (lookup (crun c evs).db m).isSome := by
  rcases h with ⟨e, he, hr⟩
  rcases output_recorded c evs m hp hm e he (.inr hr) with ⟨r, hg⟩
  rw [(get_of hg).2]; rfl

theorem silent_request {m : Id} {evs : List CEv} (h : ∃ e ∈ evs, e.isRequest m = true) : ∃ e ∈ silent evs, e.isRequest m = true := by
  rcases h with ⟨e, he, hr⟩
  refine ⟨e, List.mem_filter.2 ⟨he, ?_⟩, hr⟩
  cases e <;> simp_all [CEv.isRequest]

theorem silent_nopurge {m : Id} {evs : List CEv} (h : NoPurge m evs) : NoPurge m (silent evs) := fun hx => h (List.mem_filter.1 hx).1

theorem rel_run (c : Cfg) (m : Id) (evs : List CEv) : NoPurge m evs → DestOrdered m evs → m ∉ (crun c evs).db.culled → m ∉ (crun c (silent evs)).db.culled →
    Rel m (lookup (crun c evs).db m) (lookup (crun c (silent evs)).db m) := by
  refine snoc_ind (P := fun evs => NoPurge m evs → DestOrdered m evs → m ∉ (crun c evs).db.culled → m ∉ (crun c (silent evs)).db.culled →
    Rel m (lookup (crun c evs).db m) (lookup (crun c (silent evs)).db m)) ?_ ?_ evs
  · intro _ _ _ _
    exact trivial
  · intro evs e ih hp hd hm hm'
    have hp0 : NoPurge m evs := fun hx => hp (List.mem_append_left _ hx)
    have hd0 : DestOrdered m evs := fun pre u post h => hd pre u (post ++ [e]) (by simp [h])
    have hI := cinv_run c evs
    rw [crun_snoc] at hm ⊢
    have hm0 := culled_step c hI e hm
    rw [look_step c hI e hm]
    by_cases he : ∃ m o, e = .iopub m o
    · rcases he with ⟨m', o, rfl⟩
      rw [silent_snoc_out] at hm' ⊢
      exact rel_out m _ _ (ih hp0 hd0 hm0 hm') m' o
    · have he' : ∀ m o, e ≠ .iopub m o := fun m o h => he ⟨m, o, h⟩
      rw [silent_snoc evs e he', crun_snoc] at hm' ⊢
      have hI' := cinv_run c (silent evs)
      have hm0' := culled_step c hI' e hm'
      rw [look_step c hI' e hm']
      have ht := tables_silent c evs
      rw [← ht.1, ← ht.2]
      refine rel_other m _ _ (ih hp0 hd0 hm0 hm0') e he' (fun h => hp (by simp [h])) ?_ ?_
      · intro hx
        simp only [decide_eq_true_eq] at hx
        exact requested_look c m _ (silent_nopurge hp0) hm0' (silent_request (known_requested c m evs hx))
      · rintro u rfl
        exact requested_look c m _ (silent_nopurge hp0) hm0' (silent_request (hd evs u [] rfl))

/-- **C59 (output does not interfere)** The recorded request, destination and result of a task — every field but the output fields — are what they would be had the engines
said nothing, wherever the output falls between the other messages. -/
theorem output_does_not_interfere_partial (c : Cfg) (evs : List CEv) (m : Id) (hp : NoPurge m evs) (hd : DestOrdered m evs) (r r' : Rec)
    (h : get (crun c evs).db m = some r) (h' : get (crun c (silent evs)).db m = some r') (k : Key) (hk : k ∉ outKeys) : r.get k = r'.get k := by
  have hg := get_of h
  have hg' := get_of h'
  have := rel_run c m evs hp hd hg.1 hg'.1
  rw [hg.2, hg'.2] at this
  exact this k hk

/-- and the tables of pending and completed tasks never depend on output -/
theorem output_leaves_tables (c : Cfg) (evs : List CEv) :
    (crun c evs).pending = (crun c (silent evs)).pending ∧ (crun c evs).done = (crun c (silent evs)).done := tables_silent c evs

/-! ### a case: output before the request, between, and after the reply -/

def exC : Cfg := { recordLimit := 10, toCull := 1, sizeLimit := 1000, sizeTarget := 900 }
def exQ : Req := { header := 1, content := 2, metadata := 3, bufs := [4], date := 10, session := "cl", label := .null }
def exR : Rep := { header := 5, metadata := 6, content := 7, bufs := [8], started := some 11, completed := 12, received := 13, engine := "e1" }
def exEvs : List CEv :=
  [.iopub "t" (.stream .stdout "a"), .iopub "u" (.stream .stdout "x"), .request .task "t" exQ, .destination "t" "e1", .iopub "t" (.stream .stderr "!"),
   .iopub "t" (.error 9), .iopub "t" (.stream .stdout "b"), .result .task "t" exR, .iopub "t" (.stream .stdout "c"), .iopub "t" .ignored]

example : NoPurge "t" exEvs ∧ said .stdout "t" exEvs = "abc" ∧ said .stderr "t" exEvs = "!" ∧
    ((get (crun exC exEvs).db "t").map (fun r => (r.get "stdout", r.get "stderr", r.get "error", r.get "result_content", r.get "buffers", r.get "submitted"))) =
      some (.text "abc", .text "!", .obj 9, .obj 7, .bufs [4], .date 10) ∧
    (get (crun exC (silent exEvs)).db "t").isSome = true := by
  refine ⟨by unfold NoPurge; decide +kernel, by decide +kernel, by decide +kernel, by decide +kernel, by decide +kernel⟩

example : DestOrdered "t" exEvs := by
  intro pre u post h
  refine ⟨.request .task "t" exQ, ?_, by simp [CEv.isRequest]⟩
  match pre, h with
  | [], h => simp [exEvs] at h
  | [_], h => simp [exEvs] at h
  | [_, _], h => simp [exEvs] at h
  | a :: b :: d :: pre, h =>
    simp only [exEvs, List.cons_append, List.cons.injEq] at h
    simp [← h.2.2.1]

/-! ### records made by output alone -/

/-- **C35 is violated** by output of tasks that are not recorded otherwise (everything sent through a broadcast view: the broadcast schedulers report nothing to the hub). The
hub makes a record without submission time for each, and these are never evicted: for every configuration and every `n`, `n` tasks that print something leave `n` records. -/
theorem output_only_unbounded_violated (c : Cfg) (hs : 0 ≤ c.sizeLimit) (n : Nat) :
    ∃ evs : List CEv, evs.length = n ∧ (∀ e ∈ evs, ∃ m t, e = .iopub m (.stream .stdout t)) ∧ (crun c evs).db.records.length = n := by
  let name (i : Nat) : Id := String.ofList (List.replicate i 'x')
  have inj : ∀ i j, name i = name j → i = j := by
    intro i j h
    have := congrArg String.length h
    simpa [name] using this
  let evs (n : Nat) : List CEv := (List.range n).map (fun i => .iopub (name i) (.stream .stdout "x"))
  have main : ∀ n, (crun c (evs n)).db.records = (List.range n).map (fun i => (name i, (emptyRecord (name i)).update [("stdout", .text "x")])) ∧
      (crun c (evs n)).db.bytes = 0 ∧ (crun c (evs n)).db.culled = [] := by
    intro n
    induction n with
    | zero => exact ⟨rfl, rfl, rfl⟩
    | succ n ih =>
      have e1 : evs (n + 1) = evs n ++ [.iopub (name n) (.stream .stdout "x")] := by simp [evs, List.range_succ]
      rw [e1, crun_snoc]
      rcases ih with ⟨h1, h2, h3⟩
      generalize crun c (evs n) = s at h1 h2 h3
      have hl : lookup s.db (name n) = none := by
        rw [lookup_none, h1]
        intro x hx e
        rcases List.mem_map.1 hx with ⟨i, hi, rfl⟩
        have := inj _ _ e
        rw [List.mem_range] at hi
        omega
      have hg : get s.db (name n) = none := by rw [get_uncut (by simp [h3]), hl]
      simp only [cstep, iopub, hg, outFields, List.cons_ne_self, reduceCtorEq, if_false]
      have hh : ∀ (s1 : State), (∀ x ∈ s1.records, submitted x.2 = none) → s1.bytes = 0 → maybeCull c s1 = (s1, false) := by
        intro s1 hx hb
        have hst : stamped s1 = [] := by
          simp only [stamped, List.filterMap_eq_nil_iff]
          intro x hxx
          simp [hx x hxx]
        have hhist : history s1 = [] := by simp [history, hst, sortBy]
        have hcu : cullOldest c.toCull s1 = s1 := by simp [cullOldest, hhist]
        simp only [maybeCull, hcu, ite_self, hb]
        rw [if_neg (by omega)]
      have hrec : recBytes ((emptyRecord (name n)).update [("stdout", .text ("" ++ "x"))]) = 0 := rfl
      have hsub : ∀ m, submitted ((emptyRecord m).update [("stdout", .text "x")]) = none := fun m => rfl
      simp only [step, hl, Option.isSome_none, Bool.false_eq_true, if_false]
      have hd : datesOk ((emptyRecord (name n)).update [(Stream.stdout.key, .text ("" ++ "x"))]) = true := rfl
      simp only [hd, not_true_eq_false, if_false]
      rw [hh _ ?_ ?_]
      simp only
      rw [hh _ ?_ ?_]
      · refine ⟨?_, ?_, ?_⟩
        · simp only [h1, List.range_succ, List.map_append]
          rfl
        · show s.db.bytes + _ = 0
          rw [h2]; rfl
        · exact h3
      all_goals first
        | (intro x hx
           simp only [h1, List.mem_append, List.mem_singleton] at hx
           rcases hx with hx | rfl
           · rcases List.mem_map.1 hx with ⟨i, _, rfl⟩
             exact hsub _
           · rfl)
        | (show s.db.bytes + _ = 0
           rw [h2]; rfl)
  refine ⟨evs n, by simp [evs], ?_, ?_⟩
  · intro e he
    rcases List.mem_map.1 he with ⟨i, _, rfl⟩
    exact ⟨_, _, rfl⟩
  · rw [(main n).1]; simp

/-- after the traffic of one such task with the default kind of limits: over the limit of 0 records already, 3 records -/
example : (crun { recordLimit := 1, toCull := 1, sizeLimit := 10, sizeTarget := 9 }
    [.iopub "a" (.stream .stdout "x"), .iopub "b" (.stream .stdout "x"), .iopub "c" (.stream .stdout "x")]).db.records.length = 3 := by decide +kernel

/-! ### what a client is sent -/

/-- the `io` part of a result fetched from the hub, `_extract_record` — hub.py:1362-1368 -/
def ioReply (r : Rec) : Rec := ["execute_input", "execute_result", "error", "stdout", "stderr"].map (fun k => (k, r.get k))

theorem io_field (r : Rec) (k : Key) (h : k ∈ ["execute_input", "execute_result", "error", "stdout", "stderr"]) : (ioReply r).get k = r.get k := by
  simp only [List.mem_cons, List.not_mem_nil, or_false] at h
  rcases h with rfl | rfl | rfl | rfl | rfl <;> simp [ioReply, Rec.get]

/-- **C59 (fetched)** The streams in the fetched result are complete. -/
theorem fetched_streams_complete (c : Cfg) (evs : List CEv) (m : Id) (hp : NoPurge m evs) (r : Rec) (h : get (crun c evs).db m = some r) :
    (ioReply r).get "stdout" = .text (said .stdout m evs) ∧ (ioReply r).get "stderr" = .text (said .stderr m evs) := by
  constructor
  · rw [io_field _ _ (by simp)]; exact streams_complete c evs m hp r h .stdout
  · rw [io_field _ _ (by simp)]; exact streams_complete c evs m hp r h .stderr

/-- **C59 is violated** for rich output: nothing that a task displayed is ever part of a fetched result. -/
theorem display_not_fetched_violated (r : Rec) : (ioReply r).get "display_data" = .null := rfl

/-- Output that arrives after the task was purged brings a record back, without request. -/
theorem output_after_purge_violated :
    ((get (crun exC (exEvs ++ [.purge "t", .iopub "t" (.stream .stdout "d")])).db "t").map (fun r => (r.get "header", r.get "stdout"))) =
      some (.null, .text "d") := by decide +kernel

/-- Output that arrives after the task was evicted is stored where no one can read it: the record takes up memory, but `get_record` keeps refusing it. -/
theorem output_after_eviction_violated :
    let s := crun { recordLimit := 1, toCull := 1, sizeLimit := 100, sizeTarget := 90 }
      [.request .task "a" { exQ with date := 1 }, .request .task "b" { exQ with date := 2 }, .iopub "a" (.stream .stdout "x"), .iopub "a" (.stream .stdout "y")]
    get s.db "a" = none ∧ (lookup s.db "a").map (fun r => r.get "stdout") = some (.text "x") := by decide +kernel

end IPP.Capture
