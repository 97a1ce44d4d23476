import Verif.HubQ.Ok
/-!
# C81: calls and their answers
-/
namespace IPP.HubQ

namespace Spec

/-- nothing is under way -/
def Still (s : Sys) : Prop := (∀ c, s.queue c = []) ∧ s.suspended = [] ∧ ∀ c, s.mail c = []

end Spec

/-! ## answers -/

theorem answers_eq (r : Req) (env : Env) (hg : r.good = true) : answers r env = ((Spec.toClient (dispatch r.kind env)).filter (fun m => m.parented)).map fun m => ⟨r.id, m.typ, m.ok⟩ := by
  unfold answers Spec.toClient
  rw [if_pos hg, List.filter_filter]
  congr 1
  apply List.filter_congr
  intro m _
  simp [Bool.and_comm]

theorem answers_one (r : Req) (env : Env) (hg : r.good = true) (hk : Spec.Answerable r.kind) :
    ∃ t ok, answers r env = [⟨r.id, t, ok⟩] ∧ (t = .reply r.kind ∨ t = .hubError) ∧ (ok = true ↔ Spec.Succeeds env r.kind) := by
  obtain ⟨t, ok, h, ht⟩ := one_answer r.kind hk env
  refine ⟨t, ok, ?_, ?_, ?_⟩
  · rw [answers_eq r env hg, h]; rfl
  · rcases ht with h | h
    · exact Or.inl h
    · exact Or.inr h.1
  · rw [← ok_iff_succeeds r.kind hk env, h]
    simp

theorem answers_le (r : Req) (env : Env) : answers r env = [] ∨ ∃ t ok, answers r env = [⟨r.id, t, ok⟩] ∧ (t = .reply r.kind ∨ t = .hubError) := by
  by_cases hg : r.good = true
  · by_cases hk : Spec.Answerable r.kind
    · obtain ⟨t, ok, h1, h2, -⟩ := answers_one r env hg hk
      exact Or.inr ⟨t, ok, h1, h2⟩
    · rw [answers_eq r env hg]
      have hcase : r.kind = .registration ∨ r.kind = .unregistration := by
        by_cases h1 : r.kind = .registration
        · exact Or.inl h1
        · by_cases h2 : r.kind = .unregistration
          · exact Or.inr h2
          · exact absurd ⟨h1, h2⟩ hk
      rcases hcase with h | h <;> rw [h]
      · simp only [dispatch, handler, registerEngine, bind_eval, attempt, may, send, ask]
        cases h1 : env.ok .content <;> cases h2 : env.ok (.data 0) <;>
          simp [h2, bind_eval, may, send, ask, hubError, Spec.toClient, Pure.pure, H.pure]
      · simp only [dispatch, handler, unregisterEngine, bind_eval, attempt, may, send, ask]
        cases h1 : env.ok .content <;> cases h2 : env.ok (.data 0) <;> cases h3 : env.engine 0 <;>
          simp [h2, h3, bind_eval, may, send, ask, hubError, Spec.toClient, Pure.pure, H.pure]
  · left; simp [answers, hg]

/-! ## invariant -/

def key (x : Client × Req × Env) : Client × Req := (x.1, x.2.1)

/-- everything the hub has sent to a client, oldest first -/
def sent (s : Sys) (c : Client) : List Reply := s.handled.flatMap fun h => if h.1 = c then answers h.2.1 h.2.2 else []

structure Inv (s : Sys) : Prop where
  ids : ∀ (i : Nat) (p : Client × Req), s.calls[i]? = some p → p.2.id = i
  once : ∀ (c : Client) (r : Req), (s.queue c).count r + (s.suspended.map key).count (c, r) + (s.handled.map key).count (c, r) = if r.packs then s.calls.count (c, r) else 0
  flow : ∀ c, ∃ del, sent s c = del ++ s.mail c ∧ ∀ id, s.future c id = del.find? (fun m => m.id == id)

theorem inv_init : Inv init := by
  refine ⟨fun i p h => ?_, fun c r => ?_, fun c => ⟨[], rfl, fun id => rfl⟩⟩
  · simp [init] at h
  · simp [init]

theorem sent_snoc (s : Sys) (c : Client) (r : Req) (env : Env) (q : Client → List Req) (su : List (Client × Req × Env)) (c' : Client) :
    sent (finish { s with queue := q, suspended := su } c r env) c' = sent s c' ++ if c = c' then answers r env else [] := by
  simp [sent, finish]

theorem flow_finish {s : Sys} (h : ∀ c, ∃ del, sent s c = del ++ s.mail c ∧ ∀ id, s.future c id = del.find? (fun m => m.id == id)) (c : Client) (r : Req) (env : Env) (q : Client → List Req) (su : List (Client × Req × Env)) :
    ∀ c', ∃ del, sent (finish { s with queue := q, suspended := su } c r env) c' = del ++ (finish { s with queue := q, suspended := su } c r env).mail c' ∧
      ∀ id, (finish { s with queue := q, suspended := su } c r env).future c' id = del.find? (fun m => m.id == id) := by
  intro c'
  obtain ⟨del, h1, h2⟩ := h c'
  refine ⟨del, ?_, h2⟩
  rw [sent_snoc, h1]
  by_cases hc : c = c'
  · subst hc; simp [finish, upd]
  · have : ¬ c' = c := fun h => hc h.symm
    simp [finish, upd, hc, this]

theorem count_eraseIdx {α : Type} [BEq α] [LawfulBEq α] (l : List α) (i : Nat) (x y : α) (h : l[i]? = some x) : l.count y = (l.eraseIdx i).count y + if x == y then 1 else 0 := by
  induction l generalizing i with
  | nil => simp at h
  | cons a l ih =>
    cases i with
    | zero => simp only [List.getElem?_cons_zero, Option.some.injEq] at h; subst h; simp [List.count_cons]
    | succ i =>
      simp only [List.getElem?_cons_succ] at h
      have := ih i h
      simp only [List.eraseIdx_cons_succ, List.count_cons]
      omega

theorem map_eraseIdx' {α β : Type} (f : α → β) (l : List α) (i : Nat) : (l.eraseIdx i).map f = (l.map f).eraseIdx i := by
  induction l generalizing i with
  | nil => simp
  | cons a l ih => cases i <;> simp [ih]

theorem inv_step {s : Sys} (h : Inv s) (e : Ev) : Inv (step s e) := by
  cases e with
  | call c k packs good =>
    refine ⟨?_, ?_, h.flow⟩
    · intro i p hp
      simp only [step] at hp
      by_cases hi : i < s.calls.length
      · rw [List.getElem?_append_left hi] at hp; exact h.ids i p hp
      · rw [List.getElem?_append_right (Nat.le_of_not_lt hi)] at hp
        cases hj : i - s.calls.length with
        | zero =>
          rw [hj] at hp
          simp only [List.getElem?_cons_zero, Option.some.injEq] at hp
          subst hp
          show s.calls.length = i
          omega
        | succ j => rw [hj] at hp; simp at hp
    · intro c' r
      have := h.once c' r
      simp only [step]
      cases packs with
      | false =>
        simp only [Bool.false_eq_true, if_false]
        rw [this]
        split
        · rename_i hr
          rw [List.count_append]
          have : ¬ (c, (⟨s.calls.length, k, false, good⟩ : Req)) = (c', r) := by
            intro e; cases e; simp at hr
          simp [this]
        · rfl
      | true =>
        simp only [if_true]
        by_cases hc : c' = c
        · subst hc
          simp only [upd, if_true, List.count_append, List.count_cons, List.count_nil]
          by_cases hr : (⟨s.calls.length, k, true, good⟩ : Req) = r
          · subst hr; simp at this ⊢; omega
          · have h1 : ¬ (c', (⟨s.calls.length, k, true, good⟩ : Req)) = (c', r) := fun e => hr (Prod.mk.inj e).2
            simp [hr] at this ⊢; omega
        · have h1 : ¬ (c, (⟨s.calls.length, k, true, good⟩ : Req)) = (c', r) := fun e => hc (Prod.mk.inj e).1.symm
          simp only [upd, if_neg hc, List.count_append, List.count_cons, List.count_nil]
          simp [h1] at this ⊢; omega
  | hub c env await =>
    simp only [step]
    split
    · exact h
    · rename_i r rest hq
      have hcount : ∀ c' r', (s.queue c').count r' = (upd s.queue c rest c').count r' + if c = c' ∧ r = r' then 1 else 0 := by
        intro c' r'
        by_cases hc : c' = c
        · subst hc; simp [upd, hq, List.count_cons]
        · have : ¬ c = c' := fun h => hc h.symm
          simp [upd, hc, this]
      split
      · refine ⟨h.ids, ?_, h.flow⟩
        intro c' r'
        have := h.once c' r'
        rw [hcount c' r'] at this
        simp only [List.map_append, List.count_append, List.map_cons, List.map_nil, key]
        by_cases hx : c = c' ∧ r = r'
        · obtain ⟨rfl, rfl⟩ := hx; simp at this ⊢; omega
        · simp [hx] at this ⊢; omega
      · refine ⟨h.ids, ?_, flow_finish h.flow c r env _ s.suspended⟩
        intro c' r'
        have := h.once c' r'
        rw [hcount c' r'] at this
        simp only [finish, List.map_append, List.count_append, List.map_cons, List.map_nil, key]
        by_cases hx : c = c' ∧ r = r'
        · obtain ⟨rfl, rfl⟩ := hx; simp at this ⊢; omega
        · simp [hx] at this ⊢; omega
  | resume i =>
    simp only [step]
    split
    · exact h
    · rename_i c r env hs
      refine ⟨h.ids, ?_, flow_finish h.flow c r env s.queue _⟩
      intro c' r'
      have := h.once c' r'
      have h2 : (s.suspended.map key)[i]? = some (c, r) := by simp [hs, key]
      have h3 := count_eraseIdx (s.suspended.map key) i (c, r) (c', r') h2
      rw [h3] at this
      simp only [finish, List.map_append, List.count_append, List.map_cons, List.map_nil, map_eraseIdx', key]
      by_cases hx : c = c' ∧ r = r'
      · obtain ⟨rfl, rfl⟩ := hx; simp at this ⊢; omega
      · simp [hx] at this ⊢; omega
  | deliver c =>
    simp only [step]
    split
    · exact h
    · rename_i m rest hm
      have hflow : ∀ fut : Client → Id → Option Reply,
          (∀ c' id, fut c' id = if c' = c ∧ id = m.id ∧ s.future c m.id = none then some m else s.future c' id) →
          ∀ c', ∃ del, sent s c' = del ++ upd s.mail c rest c' ∧ ∀ id, fut c' id = del.find? (fun m => m.id == id) := by
        intro fut hfut c'
        obtain ⟨del, h1, h2⟩ := h.flow c'
        by_cases hc : c' = c
        · subst hc
          refine ⟨del ++ [m], by rw [h1, hm]; simp [upd], fun id => ?_⟩
          rw [hfut, List.find?_append, ← h2 id]
          by_cases hid : id = m.id
          · subst hid
            cases hf : s.future c' m.id <;> simp
          · have : ¬ m.id = id := fun h => hid h.symm
            cases hf : s.future c' id <;> simp [hid, this]
        · refine ⟨del, by simp [upd, hc, h1], fun id => ?_⟩
          rw [hfut, ← h2 id]; simp [hc]
      split
      · rename_i hn
        refine ⟨h.ids, h.once, hflow _ ?_⟩
        intro c' id
        simp only [Option.isNone_iff_eq_none] at hn
        by_cases hc : c' = c
        · subst hc; by_cases hid : id = m.id <;> simp [upd, hid, hn]
        · simp [upd, hc]
      · rename_i hn
        refine ⟨h.ids, h.once, hflow _ ?_⟩
        intro c' id
        have : ¬ s.future c m.id = none := by simpa using hn
        simp [this]

theorem inv_run (evs : List Ev) : Inv (run init evs) := by
  suffices ∀ s, Inv s → Inv (run s evs) from this _ inv_init
  induction evs with
  | nil => exact fun _ h => h
  | cons e evs ih => exact fun s h => ih _ (inv_step h e)

/-! ## consequences -/

theorem Inv.unique {s : Sys} (h : Inv s) {p q : Client × Req} (hp : p ∈ s.calls) (hq : q ∈ s.calls) (hid : p.2.id = q.2.id) : p = q := by
  obtain ⟨i, hi⟩ := List.getElem?_of_mem hp
  obtain ⟨j, hj⟩ := List.getElem?_of_mem hq
  have h1 := h.ids i p hi
  have h2 := h.ids j q hj
  rw [← h1, hid, h2, hj] at hi
  exact (Option.some.inj hi).symm

theorem Inv.calls_nodup {s : Sys} (h : Inv s) : s.calls.Nodup := by
  rw [List.Nodup, List.pairwise_iff_getElem]
  intro i j hi hj hij e
  have h1 := h.ids i _ (List.getElem?_eq_getElem hi)
  have h2 := h.ids j _ (List.getElem?_eq_getElem hj)
  rw [e, h2] at h1
  exact Nat.lt_irrefl i (h1 ▸ hij)

theorem Inv.handled_call {s : Sys} (h : Inv s) {x : Client × Req × Env} (hx : x ∈ s.handled) : key x ∈ s.calls ∧ x.2.1.packs = true := by
  have h1 : 0 < (s.handled.map key).count (key x) := List.count_pos_iff.2 (List.mem_map_of_mem hx)
  have h2 := h.once x.1 x.2.1
  have h3 : (x.1, x.2.1) = key x := rfl
  rw [h3] at h2
  split at h2
  · rename_i hp
    exact ⟨List.count_pos_iff.1 (by omega), hp⟩
  · omega

theorem Inv.handled_nodup {s : Sys} (h : Inv s) : (s.handled.map key).Nodup := by
  rw [List.nodup_iff_count]
  intro p
  have h2 := h.once p.1 p.2
  have h3 := List.nodup_iff_count.1 h.calls_nodup p
  split at h2
  · have : (p.1, p.2) = p := rfl
    rw [this] at h2; omega
  · have : (p.1, p.2) = p := rfl
    rw [this] at h2; omega

theorem mem_sent {s : Sys} {c : Client} {m : Reply} : m ∈ sent s c ↔ ∃ r env, (c, r, env) ∈ s.handled ∧ m ∈ answers r env := by
  simp only [sent, List.mem_flatMap]
  constructor
  · rintro ⟨⟨c', r, env⟩, h1, h2⟩
    simp only at h2
    split at h2
    · rename_i hc; subst hc; exact ⟨r, env, h1, h2⟩
    · cases h2
  · rintro ⟨r, env, h1, h2⟩
    exact ⟨(c, r, env), h1, by simpa using h2⟩

theorem answers_id {r : Req} {env : Env} {m : Reply} (h : m ∈ answers r env) : m.id = r.id := by
  unfold answers at h
  split at h
  · simp only [List.mem_map] at h; obtain ⟨x, -, rfl⟩ := h; rfl
  · cases h

theorem Inv.sent_nodup {s : Sys} (h : Inv s) (c : Client) : ((sent s c).map Reply.id).Nodup := by
  have hn := h.handled_nodup
  have hc : ∀ x ∈ s.handled, key x ∈ s.calls := fun x hx => (h.handled_call hx).1
  have hu : ∀ p q, p ∈ s.calls → q ∈ s.calls → p.2.id = q.2.id → p = q := fun p q hp hq => h.unique hp hq
  unfold sent
  generalize s.handled = l at hn hc
  induction l with
  | nil => simp
  | cons x l ih =>
    simp only [List.map_cons, List.nodup_cons] at hn
    have ih' := ih hn.2 (fun y hy => hc y (List.mem_cons_of_mem _ hy))
    rw [List.flatMap_cons, List.map_append, List.nodup_append]
    refine ⟨?_, ih', ?_⟩
    · split
      · rcases answers_le x.2.1 x.2.2 with h | ⟨t, ok, h, -⟩ <;> rw [h] <;> simp
      · simp
    · intro a ha b hb hab
      subst hab
      split at ha
      · rename_i hxc
        obtain ⟨m, hm, hma⟩ := List.mem_map.1 ha
        obtain ⟨m', hm', hma'⟩ := List.mem_map.1 hb
        obtain ⟨y, hy, hy2⟩ := List.mem_flatMap.1 hm'
        split at hy2
        · rename_i hyc
          have e1 := answers_id hm
          have e2 := answers_id hy2
          have : key x = key y := hu _ _ (hc x List.mem_cons_self) (hc y (List.mem_cons_of_mem _ hy)) (by
            show x.2.1.id = y.2.1.id
            rw [← e1, ← e2, hma, hma'])
          exact hn.1 (this ▸ List.mem_map_of_mem hy)
        · cases hy2
      · cases ha

/-! ## theorems -/

/-- **C81 (own answer).** If a call has an outcome, then it is one of this client's own requests, which the hub has handled; the outcome is the reply to that very request — of its kind, or a `hub_error` — and it says `ok` exactly if what the request needed succeeded when the hub handled it. -/
theorem own_answer (evs : List Ev) (c : Client) (id : Id) (m : Reply) (hm : (run init evs).future c id = some m) :
    ∃ r env, (c, r) ∈ (run init evs).calls ∧ (c, r, env) ∈ (run init evs).handled ∧ r.id = id ∧ m.id = id ∧
      (m.typ = .reply r.kind ∨ m.typ = .hubError) ∧ (Spec.Answerable r.kind → (m.ok = true ↔ Spec.Succeeds env r.kind)) := by
  have h := inv_run evs
  generalize run init evs = s at h hm
  obtain ⟨del, h1, h2⟩ := h.flow c
  rw [h2 id] at hm
  have hid : m.id = id := by simpa using List.find?_some hm
  have hmem : m ∈ sent s c := by rw [h1]; exact List.mem_append_left _ (List.mem_of_find?_eq_some hm)
  obtain ⟨r, env, hh, ha⟩ := mem_sent.1 hmem
  have hgood : r.good = true := by
    unfold answers at ha
    split at ha
    · assumption
    · cases ha
  refine ⟨r, env, (h.handled_call hh).1, hh, by rw [← answers_id ha, hid], hid, ?_, ?_⟩
  · rcases answers_le r env with he | ⟨t, ok, he, ht⟩ <;> rw [he] at ha
    · cases ha
    · simp only [List.mem_singleton] at ha; subst ha; exact ht
  · intro hk
    obtain ⟨t, ok, he, -, hok⟩ := answers_one r env hgood hk
    rw [he] at ha
    simp only [List.mem_singleton] at ha; subst ha; exact hok

/-- **C81 (every call is answered).** Once nothing is under way, every call whose request can be packed and deserialized has an outcome. -/
theorem every_call_answered_partial (evs : List Ev) (hq : Spec.Still (run init evs)) (c : Client) (r : Req) (hc : (c, r) ∈ (run init evs).calls)
    (hp : r.packs = true) (hg : r.good = true) (hk : Spec.Answerable r.kind) : ∃ m, (run init evs).future c r.id = some m := by
  have h := inv_run evs
  generalize run init evs = s at h hq hc
  have h1 := h.once c r
  rw [hq.1 c, hq.2.1, if_pos hp] at h1
  have h2 : 0 < s.calls.count (c, r) := List.count_pos_iff.2 hc
  have h3 : (c, r) ∈ s.handled.map key := List.count_pos_iff.1 (by simp at h1; omega)
  obtain ⟨⟨c', r', env⟩, hh, hke⟩ := List.mem_map.1 h3
  obtain ⟨rfl, rfl⟩ : c' = c ∧ r' = r := Prod.mk.inj hke
  obtain ⟨del, h4, h5⟩ := h.flow c'
  rw [hq.2.2 c', List.append_nil] at h4
  obtain ⟨t, ok, he, -, -⟩ := answers_one r' env hg hk
  have hmem : (⟨r'.id, t, ok⟩ : Reply) ∈ del := by rw [← h4]; exact mem_sent.2 ⟨r', env, hh, by rw [he]; simp⟩
  have : (del.find? (fun m => m.id == r'.id)).isSome := List.find?_isSome.2 ⟨_, hmem, by simp⟩
  rw [h5]
  exact Option.isSome_iff_exists.1 this

/-- **C81 (exactly once).** Every call is handled at most once, and the replies a client has got or is to get name different calls: a reply that reaches a client is never dropped and never a second one. -/
theorem answered_once (evs : List Ev) : (((run init evs).handled.map fun h => (h.1, h.2.1.id)).Nodup) ∧
    ∀ c, ((run init evs).mail c).Pairwise (fun a b => a.id ≠ b.id) ∧ ∀ m ∈ (run init evs).mail c, (run init evs).future c m.id = none := by
  have h := inv_run evs
  generalize run init evs = s at h
  refine ⟨?_, fun c => ?_⟩
  · have hn := h.handled_nodup
    have hc : ∀ x ∈ s.handled, key x ∈ s.calls := fun x hx => (h.handled_call hx).1
    generalize s.handled = l at hn hc
    induction l with
    | nil => simp
    | cons x l ih =>
      simp only [List.map_cons, List.nodup_cons] at hn ⊢
      refine ⟨?_, ih hn.2 (fun y hy => hc y (List.mem_cons_of_mem _ hy))⟩
      intro hx
      obtain ⟨y, hy, hxy⟩ := List.mem_map.1 hx
      have : key x = key y := h.unique (hc x List.mem_cons_self) (hc y (List.mem_cons_of_mem _ hy)) (Prod.mk.inj hxy).2.symm
      exact hn.1 (this ▸ List.mem_map_of_mem hy)
  · obtain ⟨del, h1, h2⟩ := h.flow c
    have hn := h.sent_nodup c
    rw [h1, List.map_append, List.nodup_append] at hn
    refine ⟨?_, fun m hm => ?_⟩
    · have := hn.2.1
      rw [List.Nodup, List.pairwise_map] at this
      exact this
    · rw [h2, List.find?_eq_none]
      intro x hx hxm
      exact hn.2.2 x.id (List.mem_map_of_mem hx) m.id (List.mem_map_of_mem hm) (by simpa using hxm)

/-- **C81 (outcomes are final).** Nothing that happens later changes the outcome of a call. -/
theorem outcome_final (s : Sys) (evs : List Ev) (c : Client) (id : Id) (m : Reply) (hm : s.future c id = some m) : (run s evs).future c id = some m := by
  induction evs generalizing s with
  | nil => exact hm
  | cons e evs ih =>
    refine ih (step s e) ?_
    cases e with
    | call c' k p g => exact hm
    | hub c' env a =>
      simp only [step]
      split
      · exact hm
      · split <;> exact hm
    | resume i =>
      simp only [step]
      split
      · exact hm
      · exact hm
    | deliver c' =>
      simp only [step]
      split
      · exact hm
      · rename_i m' rest hma
        split
        · rename_i hn
          simp only [upd]
          split
          · rename_i hcc
            subst hcc
            show (if id = m'.id then some m' else s.future c id) = some m
            split
            · rename_i hid
              subst hid
              simp [hm] at hn
            · exact hm
          · exact hm
        · exact hm

/-- **C81, violation.** A call whose request cannot be packed — the exception is raised in the IO thread — or that the hub cannot deserialize — its error reply is sent with the list of frames as parent, which raises — never has an outcome: it waits for ever. -/
theorem unanswered_call_violated (evs : List Ev) (c : Client) (r : Req) (hc : (c, r) ∈ (run init evs).calls) (hb : r.packs = false ∨ r.good = false) :
    (run init evs).future c r.id = none := by
  cases hf : (run init evs).future c r.id with
  | none => rfl
  | some m =>
    exfalso
    have h := inv_run evs
    generalize run init evs = s at h hf hc
    obtain ⟨del, h1, h2⟩ := h.flow c
    rw [h2] at hf
    have hid : m.id = r.id := by simpa using List.find?_some hf
    have hmem : m ∈ sent s c := by rw [h1]; exact List.mem_append_left _ (List.mem_of_find?_eq_some hf)
    obtain ⟨r', env, hh, ha⟩ := mem_sent.1 hmem
    obtain ⟨hcall, hpk⟩ := h.handled_call hh
    have he : (c, r) = (c, r') := h.unique hc hcall (by show r.id = r'.id; rw [← hid, answers_id ha])
    obtain ⟨-, rfl⟩ := Prod.mk.inj he
    rcases hb with hb | hb
    · rw [hb] at hpk; cases hpk
    · simp [answers, hb] at ha

/-! ## the hypotheses are met -/

def fine : Env := { ok := fun _ => true, n := 2, all := false, pending := false, engine := fun _ => true, found := .eq, statusOnly := false, known := fun _ => .completed, inUse := false, dask := false }
def broken : Env := { fine with ok := fun o => decide (o ≠ .find) }

/-- two clients; `become_dask` of the first is suspended while others are answered; a database error -/
def demo : List Ev := [.call 0 .becomeDask true true, .call 0 .result true true, .call 1 .db true true, .call 1 .queue true false, .call 1 .purge false true,
  .hub 0 fine true, .hub 0 fine false, .hub 1 broken false, .deliver 0, .resume 0, .deliver 0, .deliver 1, .hub 1 fine false]

theorem Inv.idle {s : Sys} (h : Inv s) (c : Client) (hc : ∀ r, (c, r) ∉ s.calls) : s.queue c = [] ∧ s.mail c = [] := by
  constructor
  · rw [List.eq_nil_iff_forall_not_mem]
    intro r hr
    have h1 := h.once c r
    have h2 := List.count_pos_iff.2 hr
    rw [List.count_eq_zero_of_not_mem (hc r)] at h1
    split at h1 <;> omega
  · rw [List.eq_nil_iff_forall_not_mem]
    intro m hm
    obtain ⟨del, h1, -⟩ := h.flow c
    obtain ⟨r, env, hh, -⟩ := mem_sent.1 (h1 ▸ List.mem_append_right _ hm : m ∈ sent s c)
    exact hc r (h.handled_call hh).1

example : Spec.Still (run init demo) := by
  have hidle : ∀ c, c ≠ 0 → c ≠ 1 → (run init demo).queue c = [] ∧ (run init demo).mail c = [] := by
    intro c h0 h1
    apply (inv_run demo).idle c
    intro r hr
    have : (run init demo).calls = [(0, ⟨0, .becomeDask, true, true⟩), (0, ⟨1, .result, true, true⟩), (1, ⟨2, .db, true, true⟩), (1, ⟨3, .queue, true, false⟩), (1, ⟨4, .purge, false, true⟩)] := rfl
    rw [this] at hr
    simp [h0, h1] at hr
  refine ⟨fun c => ?_, rfl, fun c => ?_⟩
  · by_cases h0 : c = 0
    · subst h0; rfl
    · by_cases h1 : c = 1
      · subst h1; rfl
      · exact (hidle c h0 h1).1
  · by_cases h0 : c = 0
    · subst h0; rfl
    · by_cases h1 : c = 1
      · subst h1; rfl
      · exact (hidle c h0 h1).2

example : (run init demo).future 0 0 = some ⟨0, .reply .becomeDask, true⟩ ∧ (run init demo).future 0 1 = some ⟨1, .reply .result, true⟩ ∧
    (run init demo).future 1 2 = some ⟨2, .reply .db, false⟩ ∧ (run init demo).future 1 3 = none ∧ (run init demo).future 1 4 = none := by
  refine ⟨rfl, rfl, rfl, rfl, rfl⟩

end IPP.HubQ
