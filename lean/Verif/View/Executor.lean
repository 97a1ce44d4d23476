import Verif.View.Imap

/-!
# C83: the executor of a view — view.py:1744-1777, client.py:2046-2059

Any number of maps (each the transition system of `View/Imap.lean`) and of submitted calls, the cluster, and one thread that calls `shutdown()` (or leaves a `with executor:` block). Other threads may
go on submitting. Recording the id of a submitted task in the view's history is part of the submission here; see `View/SaveIds.lean` for calls of several threads at the same moment.
-/
namespace IPP.Exec
open IPP.Imap (Env St Step Inv Slots Main)

/-- client/view.py:379, 1213, 938 -/
inductive Kind where
  | loadBalanced
  | direct
  | broadcast
  deriving DecidableEq, Repr

/-- an `imap` that was started — client/view.py:1520-1715 -/
structure Map where
  E : Env
  st : St

/-- a task: the `i`-th call of `submit`, or the `k`-th task of the `i`-th map — client/view.py:1754-1763 -/
inductive Tid where
  | call (i : Nat)
  | ofMap (i k : Nat)
  deriving DecidableEq, Repr

/-- where the thread that shuts down is — client/view.py:1765-1777. `nm`, `nt`: the numbers of maps and of submitted calls when `shutdown` was called. -/
inductive Phase where
  | working
  /-- in `while outstanding_maps` -/
  | emptying (nm nt : Nat)
  /-- in `self.view.wait()`, for these tasks -/
  | waiting (nm nt : Nat) (ids : Tid → Bool)
  | returned (nm nt : Nat)
  /-- AttributeError -/
  | crashed

/-- client/view.py:1744-1777 -/
structure Sys where
  kind : Kind
  maps : List Map
  /-- the submitted calls: is it finished? -/
  calls : List Bool
  user : Phase

/-- client/view.py:114-120 -/
def init (k : Kind) : Sys := { kind := k, maps := [], calls := [], user := .working }

/-- the task is in the view's history — `save_ids`, client/view.py:34-46 -/
def Sys.submitted (s : Sys) : Tid → Bool
  | .call i => i < s.calls.length
  | .ofMap i k => match s.maps[i]? with
    | none => false
    | some m => k < m.st.submitted

/-- the task's future is done — client/client.py:1615-1660 -/
def Sys.finished (s : Sys) : Tid → Bool
  | .call i => s.calls[i]? = some true
  | .ofMap i k => match s.maps[i]? with
    | none => false
    | some m => k ∈ m.st.finished

/-- One step. -/
inductive SStep : Sys → Sys → Prop where
  /-- `submit` — view.py:1754-1756 -/
  | submit (s : Sys) : SStep s { s with calls := s.calls ++ [false] }
  /-- `map` — view.py:1758-1763, 1575-1681 -/
  | newMap (s : Sys) (E : Env) (h : s.kind = .loadBalanced) : SStep s { s with maps := s.maps ++ [⟨E, Imap.init E⟩] }
  /-- the cluster finishes a submitted call -/
  | finish (s : Sys) (i : Nat) (h : s.calls[i]? = some false) : SStep s { s with calls := s.calls.set i true }
  /-- something happens in a map — view.py:1520-1715 -/
  | map (s : Sys) (i : Nat) (m : Map) (st' : St) (h : s.maps[i]? = some m) (st : Step m.E m.st st') : SStep s { s with maps := s.maps.set i { m with st := st' } }
  /-- the iterator over the results is closed before its end (`break`, and no other reference to it): GeneratorExit at a `yield` — view.py:1684-1703 -/
  | close (s : Sys) (i : Nat) (m : Map) (h : s.maps[i]? = some m) (hm : m.st.main = .loop ∨ m.st.main = .drain) (hw : m.st.waiting = none) :
      SStep s { s with maps := s.maps.set i { m with st := { m.st with main := .raised, opened := false } } }
  /-- `shutdown(wait=True)` — view.py:1765-1773 -/
  | shutdown (s : Sys) (h : s.user = .working) (hk : s.kind = .loadBalanced) : SStep s { s with user := .emptying s.maps.length s.calls.length }
  /-- … of another kind of view, which has no `_outstanding_maps` — view.py:1236, 1773 -/
  | crash (s : Sys) (h : s.user = .working) (hk : s.kind ≠ .loadBalanced) : SStep s { s with user := .crashed }
  /-- `while outstanding_maps` ends; `view.wait()` takes the view's history — view.py:1774-1777, 262-264 -/
  | pass (s : Sys) (nm nt : Nat) (h : s.user = .emptying nm nt) (hd : ∀ m ∈ s.maps, m.st.done = true) : SStep s { s with user := .waiting nm nt s.submitted }
  /-- `client.wait` returns — client.py:1615-1660 -/
  | ret (s : Sys) (nm nt : Nat) (ids : Tid → Bool) (h : s.user = .waiting nm nt ids) (hf : ∀ t, ids t = true → s.finished t = true) : SStep s { s with user := .returned nm nt }

/-- any interleaving of the threads and the cluster — client/view.py:1520-1777 -/
inductive Run (a : Sys) : Sys → Prop where
  | refl : Run a a
  | step {s s' : Sys} : Run a s → SStep s s' → Run a s'

def Reach (k : Kind) (s : Sys) : Prop := Run (init k) s

/-! ## Specification vocabulary -/

/-- every input of this map was taken and submitted, and all its tasks are finished; the future that holds an exception of the input iterator counts as a finished task -/
def Complete (m : Map) : Prop :=
  m.st.taken = m.E.n ∧ m.st.submitted = m.E.n + (if m.E.tail then 1 else 0) ∧ ∀ k, k < m.st.submitted → k ∈ m.st.finished

/-- a step of the input thread of a map, or of the cluster: the user does nothing -/
def Bg (m : Map) (st' : St) : Prop :=
  Step m.E m.st st' ∧ st'.main = m.st.main ∧ st'.waiting = m.st.waiting ∧ st'.cancelled = m.st.cancelled ∧ st' ≠ m.st

/-- the steps that happen without the user (except that the thread in `shutdown` goes on) -/
inductive BStep : Sys → Sys → Prop where
  | finish (s : Sys) (i : Nat) (h : s.calls[i]? = some false) : BStep s { s with calls := s.calls.set i true }
  | map (s : Sys) (i : Nat) (m : Map) (st' : St) (h : s.maps[i]? = some m) (st : Bg m st') : BStep s { s with maps := s.maps.set i { m with st := st' } }
  | pass (s : Sys) (nm nt : Nat) (h : s.user = .emptying nm nt) (hd : ∀ m ∈ s.maps, m.st.done = true) : BStep s { s with user := .waiting nm nt s.submitted }
  | ret (s : Sys) (nm nt : Nat) (ids : Tid → Bool) (h : s.user = .waiting nm nt ids) (hf : ∀ t, ids t = true → s.finished t = true) : BStep s { s with user := .returned nm nt }

/-- whatever happens, in the end the call of `shutdown` has returned -/
inductive Inevitable : Sys → Prop where
  | now (s : Sys) (nm nt : Nat) (h : s.user = .returned nm nt) : Inevitable s
  | later (s : Sys) (h1 : ∃ s', BStep s s') (h2 : ∀ s', BStep s s' → Inevitable s') : Inevitable s

/-- the thread is in `shutdown` -/
def ShuttingDown (s : Sys) : Prop := (∃ nm nt, s.user = .emptying nm nt) ∨ ∃ nm nt ids, s.user = .waiting nm nt ids

/-! ## one map -/

structure MInv (m : Map) : Prop where
  inv : Inv m.E m.st
  slots : Slots m.E m.st
  canc : m.st.cancelled = true → m.st.done = true

theorem minv_init (E : Env) : MInv ⟨E, Imap.init E⟩ := ⟨Imap.inv_init E, Imap.slots_init E, by intro h; simp [Imap.init] at h⟩

theorem minv_step {m : Map} (h : MInv m) {st' : St} (st : Step m.E m.st st') : MInv { m with st := st' } := by
  refine ⟨Imap.inv_step h.inv st, Imap.slots_step h.slots st, ?_⟩
  have hc := h.canc
  cases st <;> simp_all

theorem minv_close {m : Map} (h : MInv m) : MInv { m with st := { m.st with main := .raised, opened := false } } := by
  have I := h.inv
  refine ⟨⟨I.fin, I.finNodup, fun hc => absurd rfl hc, fun _ hc => absurd rfl hc, I.yfin, I.ywas, I.count, I.takenLe, I.pseudo, I.doneAll, I.bound, ?_, ?_, ?_⟩, ?_, h.canc⟩
  · rintro (hc | hc) <;> cases hc
  · intro hc; cases hc
  · intro hc; cases hc
  · intro _ hc; cases hc

/-- what stays as it is -/
structure Keeps (a b : St) : Prop where
  done : a.done = true → b.done = true
  canc : b.cancelled = false → a.cancelled = false
  fin : ∀ k ∈ a.finished, k ∈ b.finished
  sub : a.submitted ≤ b.submitted

theorem keeps_step {E : Env} {a b : St} (st : Step E a b) : Keeps a b := by
  cases st <;> refine ⟨?_, ?_, ?_, ?_⟩ <;> simp_all <;> intros <;> simp_all

theorem submitted_of_done {m : Map} (h : MInv m) (hd : m.st.done = true) (hc : m.st.cancelled = false) : m.st.taken = m.E.n ∧ m.st.submitted = m.E.n + (if m.E.tail then 1 else 0) := by
  obtain ⟨h1, h2, h3⟩ := h.inv.doneAll hd hc
  refine ⟨h1, ?_⟩
  have := h.inv.count
  rw [h2, h1, h3] at this
  cases ht : m.E.tail <;> simp [ht, Imap.b2n] at this ⊢ <;> exact this

/-! ## all maps -/

structure SInv (s : Sys) : Prop where
  maps : ∀ (i : Nat) (m : Map), s.maps[i]? = some m → MInv m
  emptying : ∀ nm nt, s.user = .emptying nm nt → nm ≤ s.maps.length ∧ nt ≤ s.calls.length
  waiting : ∀ nm nt ids, s.user = .waiting nm nt ids → nt ≤ s.calls.length ∧ (∀ i, i < nt → ids (.call i) = true) ∧ nm ≤ s.maps.length ∧
    (∀ (i : Nat) (m : Map), i < nm → s.maps[i]? = some m → m.st.done = true ∧ (m.st.cancelled = false → ∀ k, k < m.st.submitted → ids (.ofMap i k) = true)) ∧
    ∀ t, ids t = true → s.submitted t = true
  returned : ∀ nm nt, s.user = .returned nm nt → (∀ i, i < nt → s.calls[i]? = some true) ∧ nm ≤ s.maps.length ∧
    ∀ (i : Nat) (m : Map), i < nm → s.maps[i]? = some m → m.st.done = true ∧ (m.st.cancelled = false → ∀ k, k < m.st.submitted → k ∈ m.st.finished)

theorem getElem?_set_cases {α : Type} {l : List α} {i j : Nat} {x y a : α} (h : l[i]? = some x) (hs : (l.set i y)[j]? = some a) : (j = i ∧ a = y) ∨ (j ≠ i ∧ l[j]? = some a) := by
  have hi : i < l.length := by
    by_cases hc : i < l.length
    · exact hc
    · rw [List.getElem?_eq_none (by omega)] at h; cases h
  by_cases hj : j = i
  · subst hj; rw [List.getElem?_set_self hi] at hs; exact .inl ⟨rfl, by simpa using hs.symm⟩
  · rw [List.getElem?_set_ne (Ne.symm hj)] at hs; exact .inr ⟨hj, hs⟩

theorem getElem?_lt {α : Type} {l : List α} {i : Nat} {x : α} (h : l[i]? = some x) : i < l.length := by
  by_cases hc : i < l.length
  · exact hc
  · rw [List.getElem?_eq_none (by omega)] at h; cases h

/-- a map changes: the new state keeps what matters -/
theorem sinv_set {s : Sys} (I : SInv s) {i : Nat} {m : Map} (h : s.maps[i]? = some m) (m' : Map) (hE : m'.E = m.E) (hm : MInv m') (hk : Keeps m.st m'.st) :
    SInv { s with maps := s.maps.set i m' } := by
  refine ⟨?_, ?_, ?_, ?_⟩
  · intro j x hx
    rcases getElem?_set_cases h hx with ⟨-, rfl⟩ | ⟨-, hx⟩
    · exact hm
    · exact I.maps j x hx
  · intro nm nt hu
    have := I.emptying nm nt hu
    simpa using this
  · intro nm nt ids hu
    obtain ⟨w1, w2, w3, w4, w5⟩ := I.waiting nm nt ids hu
    refine ⟨w1, w2, by simpa using w3, ?_, ?_⟩
    · intro j x hj hx
      rcases getElem?_set_cases h hx with ⟨rfl, rfl⟩ | ⟨-, hx⟩
      · obtain ⟨d, a⟩ := w4 j m hj h
        refine ⟨hk.done d, fun hc k hk' => ?_⟩
        have hcm := hk.canc hc
        apply a hcm
        rw [(submitted_of_done (I.maps j m h) d hcm).2, ← hE, ← (submitted_of_done hm (hk.done d) hc).2]
        exact hk'
      · exact w4 j x hj hx
    · intro t ht
      have := w5 t ht
      cases t with
      | call j => exact this
      | ofMap j k =>
        simp only [Sys.submitted] at this ⊢
        by_cases hj : j = i
        · subst hj
          rw [h] at this
          rw [List.getElem?_set_self (getElem?_lt h)]
          have h2 := hk.sub
          simp only [decide_eq_true_eq] at this ⊢
          omega
        · rw [List.getElem?_set_ne (Ne.symm hj)]; exact this
  · intro nm nt hu
    obtain ⟨r1, r2, r3⟩ := I.returned nm nt hu
    refine ⟨r1, by simpa using r2, ?_⟩
    intro j x hj hx
    rcases getElem?_set_cases h hx with ⟨rfl, rfl⟩ | ⟨-, hx⟩
    · obtain ⟨d, a⟩ := r3 j m hj h
      refine ⟨hk.done d, fun hc k hk' => hk.fin k ?_⟩
      have hcm := hk.canc hc
      apply a hcm
      rw [(submitted_of_done (I.maps j m h) d hcm).2, ← hE, ← (submitted_of_done hm (hk.done d) hc).2]
      exact hk'
    · exact r3 j x hj hx

theorem sinv_step {s s' : Sys} (I : SInv s) (st : SStep s s') : SInv s' := by
  cases st with
  | submit =>
    refine ⟨I.maps, ?_, ?_, ?_⟩
    · intro nm nt hu
      have := I.emptying nm nt hu
      simp only [List.length_append, List.length_singleton]; omega
    · intro nm nt ids hu
      obtain ⟨w1, w2, w3, w4, w5⟩ := I.waiting nm nt ids hu
      refine ⟨by simp only [List.length_append, List.length_singleton]; omega, w2, w3, w4, ?_⟩
      intro t ht
      have := w5 t ht
      cases t with
      | call j => simp only [Sys.submitted, decide_eq_true_eq, List.length_append, List.length_singleton] at this ⊢; omega
      | ofMap j k => exact this
    · intro nm nt hu
      obtain ⟨r1, r2⟩ := I.returned nm nt hu
      refine ⟨fun i hi => ?_, r2⟩
      have := r1 i hi
      rw [List.getElem?_append_left (getElem?_lt this)]; exact this
  | newMap E hk =>
    have old : ∀ (j : Nat) (x : Map), j < s.maps.length → (s.maps ++ [⟨E, Imap.init E⟩])[j]? = some x → s.maps[j]? = some x := by
      intro j x hj hx
      rwa [List.getElem?_append_left hj] at hx
    refine ⟨?_, ?_, ?_, ?_⟩
    · intro j x hx
      by_cases hj : j < s.maps.length
      · exact I.maps j x (old j x hj hx)
      · have := getElem?_lt hx
        simp only [List.length_append, List.length_singleton] at this
        have hj' : j = s.maps.length := by omega
        subst hj'
        simp at hx; subst hx; exact minv_init E
    · intro nm nt hu
      have := I.emptying nm nt hu
      simp only [List.length_append, List.length_singleton]; omega
    · intro nm nt ids hu
      obtain ⟨w1, w2, w3, w4, w5⟩ := I.waiting nm nt ids hu
      refine ⟨w1, w2, by simp only [List.length_append, List.length_singleton]; omega, ?_, ?_⟩
      · intro j x hj hx
        exact w4 j x hj (old j x (by omega) hx)
      · intro t ht
        have := w5 t ht
        cases t with
        | call j => exact this
        | ofMap j k =>
          simp only [Sys.submitted] at this ⊢
          by_cases hj : j < s.maps.length
          · rw [List.getElem?_append_left hj]; exact this
          · rw [List.getElem?_eq_none (by omega)] at this; cases this
    · intro nm nt hu
      obtain ⟨r1, r2, r3⟩ := I.returned nm nt hu
      refine ⟨r1, by simp only [List.length_append, List.length_singleton]; omega, ?_⟩
      intro j x hj hx
      exact r3 j x hj (old j x (by omega) hx)
  | finish i h =>
    refine ⟨I.maps, ?_, ?_, ?_⟩
    · intro nm nt hu
      have := I.emptying nm nt hu
      simpa using this
    · intro nm nt ids hu
      obtain ⟨w1, w2, w3, w4, w5⟩ := I.waiting nm nt ids hu
      refine ⟨by simpa using w1, w2, w3, w4, ?_⟩
      intro t ht
      have := w5 t ht
      cases t with
      | call j => simpa [Sys.submitted] using this
      | ofMap j k => exact this
    · intro nm nt hu
      obtain ⟨r1, r2⟩ := I.returned nm nt hu
      refine ⟨fun j hj => ?_, r2⟩
      have := r1 j hj
      by_cases hji : j = i
      · subst hji; rw [List.getElem?_set_self (getElem?_lt h)]
      · rw [List.getElem?_set_ne (Ne.symm hji)]; exact this
  | map i m st' h st => exact sinv_set I h { m with st := st' } rfl (minv_step (I.maps i m h) st) (keeps_step st)
  | close i m h hm hw => exact sinv_set I h _ rfl (minv_close (I.maps i m h)) ⟨id, id, fun _ h => h, Nat.le_refl _⟩
  | shutdown h hk =>
    refine ⟨I.maps, ?_, ?_, ?_⟩
    · intro nm nt hu
      simp only [Phase.emptying.injEq] at hu
      obtain ⟨rfl, rfl⟩ := hu
      exact ⟨Nat.le_refl _, Nat.le_refl _⟩
    · intro nm nt ids hu; cases hu
    · intro nm nt hu; cases hu
  | crash h hk =>
    refine ⟨I.maps, ?_, ?_, ?_⟩
    · intro nm nt hu; cases hu
    · intro nm nt ids hu; cases hu
    · intro nm nt hu; cases hu
  | pass nm nt h hd =>
    have he := I.emptying nm nt h
    refine ⟨I.maps, ?_, ?_, ?_⟩
    · intro nm nt hu; cases hu
    · intro nm' nt' ids hu
      simp only [Phase.waiting.injEq] at hu
      obtain ⟨rfl, rfl, rfl⟩ := hu
      refine ⟨he.2, ?_, he.1, ?_, ?_⟩
      · intro i hi; simp only [Sys.submitted, decide_eq_true_eq]; omega
      · intro i m hi hm
        refine ⟨hd m (List.mem_of_getElem? hm), fun _ k hk => ?_⟩
        simp only [Sys.submitted, hm, decide_eq_true_eq]; exact hk
      · intro t ht
        cases t <;> exact ht
    · intro nm nt hu; cases hu
  | ret nm nt ids h hf =>
    obtain ⟨w1, w2, w3, w4, w5⟩ := I.waiting nm nt ids h
    refine ⟨I.maps, ?_, ?_, ?_⟩
    · intro nm nt hu; cases hu
    · intro nm nt ids hu; cases hu
    · intro nm' nt' hu
      simp only [Phase.returned.injEq] at hu
      obtain ⟨rfl, rfl⟩ := hu
      refine ⟨?_, w3, ?_⟩
      · intro i hi
        have := hf _ (w2 i hi)
        simpa [Sys.finished] using this
      · intro i m hi hm
        obtain ⟨d, a⟩ := w4 i m hi hm
        refine ⟨d, fun hc k hk => ?_⟩
        have := hf _ (a hc k hk)
        simpa [Sys.finished, hm] using this

theorem sinv_init (k : Kind) : SInv (init k) := by
  refine ⟨?_, ?_, ?_, ?_⟩
  · intro i m h; simp [init] at h
  · intro nm nt hu; cases hu
  · intro nm nt ids hu; cases hu
  · intro nm nt hu; cases hu

theorem sinv_run {a s : Sys} (h : SInv a) (r : Run a s) : SInv s := by
  induction r with
  | refl => exact h
  | step _ st ih => exact sinv_step ih st

/-! ## the property -/

/-- **C83 (1)** When `shutdown()` has returned, every call submitted before it is finished, and every map started before it has submitted all its inputs and finished all its tasks, unless
it was cancelled: for every interleaving, whether or not anybody iterates over the results. -/
theorem shutdown_waits_partial {k : Kind} {s : Sys} (h : Reach k s) {nm nt : Nat} (hr : s.user = .returned nm nt) :
    (∀ i, i < nt → s.calls[i]? = some true) ∧ ∀ i, i < nm → ∃ m, s.maps[i]? = some m ∧ (m.st.cancelled = false → Complete m) := by
  have I := sinv_run (sinv_init k) h
  obtain ⟨r1, r2, r3⟩ := I.returned nm nt hr
  refine ⟨r1, fun i hi => ?_⟩
  have hlt : i < s.maps.length := by omega
  refine ⟨s.maps[i], List.getElem?_eq_getElem hlt, fun hc => ?_⟩
  obtain ⟨d, a⟩ := r3 i _ hi (List.getElem?_eq_getElem hlt)
  obtain ⟨t1, t2⟩ := submitted_of_done (I.maps i _ (List.getElem?_eq_getElem hlt)) d hc
  exact ⟨t1, t2, a hc⟩

/-! ## it ends -/

/-- what is left to do -/
def total (s : Sys) : Nat := (s.maps.map (fun m => Imap.measure m.E m.st)).sum + (s.calls.filter (fun b => !b)).length +
  match s.user with
  | .emptying _ _ => 2
  | .waiting _ _ _ => 1
  | _ => 0

theorem sum_set_lt (l : List Map) (f : Map → Nat) (i : Nat) (m m' : Map) (h : l[i]? = some m) (hlt : f m' < f m) : ((l.set i m').map f).sum < (l.map f).sum := by
  induction l generalizing i with
  | nil => simp at h
  | cons a l ih =>
    cases i with
    | zero => simp only [List.getElem?_cons_zero, Option.some.injEq] at h; subst h; simp; omega
    | succ i =>
      simp only [List.getElem?_cons_succ] at h
      have := ih i h
      simp only [List.set_cons_succ, List.map_cons, List.sum_cons]; omega

theorem filter_set_lt (l : List Bool) (i : Nat) (h : l[i]? = some false) : ((l.set i true).filter (fun b => !b)).length < (l.filter (fun b => !b)).length := by
  induction l generalizing i with
  | nil => simp at h
  | cons a l ih =>
    cases i with
    | zero => simp only [List.getElem?_cons_zero, Option.some.injEq] at h; subst h; simp
    | succ i =>
      simp only [List.getElem?_cons_succ] at h
      have := ih i h
      cases a <;> simp <;> omega

theorem bg_decreases {m : Map} {st' : St} (h : MInv m) (b : Bg m st') : Imap.measure m.E st' < Imap.measure m.E m.st := by
  obtain ⟨st, -, -, hc, hne⟩ := b
  refine Imap.steps_decrease_inv h.inv st ⟨hc, fun hcc he => hne ?_⟩
  rw [he]
  have := h.canc hcc
  cases hm : m.st
  simp_all

theorem bstep_decreases {s s' : Sys} (I : SInv s) (b : BStep s s') : total s' < total s := by
  cases b with
  | finish i h => have := filter_set_lt s.calls i h; simp only [total]; omega
  | map i m st' h st =>
    have := sum_set_lt s.maps (fun m => Imap.measure m.E m.st) i m { m with st := st' } h (bg_decreases (I.maps i m h) st)
    simp only [total]; omega
  | pass nm nt h hd => simp only [total, h]; omega
  | ret nm nt ids h hf => simp only [total, h]; omega

/-- the pool of every map that is not over still works: its iterator was not closed, and no error came out of it -/
def Open (s : Sys) : Prop := ∀ (i : Nat) (m : Map), s.maps[i]? = some m → m.st.done = true ∨ m.st.opened = true

theorem BStep.sstep {s s' : Sys} (b : BStep s s') : SStep s s' := by
  cases b with
  | finish i h => exact .finish s i h
  | map i m st' h st => exact .map s i m st' h st.1
  | pass nm nt h hd => exact .pass s nm nt h hd
  | ret nm nt ids h hf => exact .ret s nm nt ids h hf

theorem bg_open {m : Map} {st' : St} (b : Bg m st') (h : m.st.done = true ∨ m.st.opened = true) : st'.done = true ∨ st'.opened = true := by
  obtain ⟨st, hm, hw, hc, hne⟩ := b
  cases st <;> simp_all

theorem bstep_open {s s' : Sys} (h : Open s) (b : BStep s s') : Open s' := by
  cases b with
  | map i m st' hi st =>
    intro j x hx
    rcases getElem?_set_cases hi hx with ⟨-, rfl⟩ | ⟨-, hx⟩
    · exact bg_open st (h i m hi)
    · exact h j x hx
  | finish i hi => exact h
  | pass nm nt hu hd => exact h
  | ret nm nt ids hu hf => exact h

theorem bstep_shutting {s s' : Sys} (h : ShuttingDown s) (b : BStep s s') : ShuttingDown s' ∨ ∃ nm nt, s'.user = .returned nm nt := by
  cases b with
  | finish i hi => exact .inl h
  | map i m st' hi st => exact .inl h
  | pass nm nt hu hd => exact .inl (.inr ⟨nm, nt, _, rfl⟩)
  | ret nm nt ids hu hf => exact .inr ⟨nm, nt, rfl⟩

/-- an unfinished task of a map can finish -/
theorem bg_finish {m : Map} {k : Nat} (h1 : k < m.st.submitted) (h2 : k ∉ m.st.finished) : ∃ st', Bg m st' :=
  ⟨_, .finish m.st k h1 h2, rfl, rfl, rfl, by intro hc; have := congrArg (fun x => x.finished.length) hc; simp at this⟩

/-- a map that is not over can go on -/
theorem bg_exists {m : Map} (I : MInv m) (hd : m.st.done = false) (ho : m.st.opened = true) : ∃ st', Bg m st' := by
  by_cases hin : m.st.inflight = true
  · exact ⟨_, .submit m.st hin, rfl, rfl, rfl, by intro hc; have := congrArg St.inflight hc; simp [hin] at this⟩
  · have hin' : m.st.inflight = false := by simpa using hin
    by_cases ht : 0 < m.st.tokens
    · by_cases hn : m.st.taken < m.E.n
      · exact ⟨_, .take m.st ht hin' hd hn, rfl, rfl, rfl, by intro hc; have := congrArg St.taken hc; simp at this⟩
      · cases htl : m.E.tail with
        | false => exact ⟨_, .stop m.st ht hin' hd hn htl, rfl, rfl, rfl, by intro hc; have := congrArg St.tokens hc; simp at this; omega⟩
        | true => exact ⟨_, .fail m.st ht hin' hd hn htl, rfl, rfl, rfl, by intro hc; have := congrArg St.tokens hc; simp at this; omega⟩
    · have hs := I.slots hd ho
      by_cases hu : ∃ k, k < m.st.submitted ∧ k ∉ m.st.finished
      · obtain ⟨k, h1, h2⟩ := hu
        exact bg_finish h1 h2
      · exfalso
        have hle : m.st.submitted ≤ m.st.finished.length := by
          have := Imap.nodup_sub (List.range m.st.submitted) m.st.finished List.nodup_range (fun k hk => by
            by_cases hf : k ∈ m.st.finished
            · exact hf
            · exact absurd ⟨k, by simpa using hk, hf⟩ hu)
          simpa using this
        split at hs <;> simp [Imap.b2n, hin'] at hs <;> omega

theorem bstep_exists {s : Sys} (I : SInv s) (ho : Open s) (h : ShuttingDown s) : ∃ s', BStep s s' := by
  rcases h with ⟨nm, nt, hu⟩ | ⟨nm, nt, ids, hu⟩
  · by_cases hd : ∀ m ∈ s.maps, m.st.done = true
    · exact ⟨_, .pass s nm nt hu hd⟩
    · have : ∃ m ∈ s.maps, m.st.done = false := by
        apply Classical.byContradiction
        intro hc
        apply hd
        intro m hm
        cases hx : m.st.done with
        | true => rfl
        | false => exact absurd ⟨m, hm, hx⟩ hc
      obtain ⟨m, hm, hmd⟩ := this
      obtain ⟨i, hi⟩ := List.getElem?_of_mem hm
      have hop : m.st.opened = true := (ho i m hi).resolve_left (by rw [hmd]; simp)
      obtain ⟨st', b⟩ := bg_exists (I.maps i m hi) hmd hop
      exact ⟨_, .map s i m st' hi b⟩
  · by_cases hf : ∀ t, ids t = true → s.finished t = true
    · exact ⟨_, .ret s nm nt ids hu hf⟩
    · have : ∃ t, ids t = true ∧ s.finished t = false := by
        apply Classical.byContradiction
        intro hc
        apply hf
        intro t ht
        cases hx : s.finished t with
        | true => rfl
        | false => exact absurd ⟨t, ht, hx⟩ hc
      obtain ⟨t, ht, htf⟩ := this
      have hs := (I.waiting nm nt ids hu).2.2.2.2 t ht
      cases t with
      | call i =>
        simp only [Sys.submitted, Sys.finished, decide_eq_true_eq, decide_eq_false_iff_not] at hs htf
        refine ⟨_, .finish s i ?_⟩
        rw [List.getElem?_eq_getElem hs] at htf ⊢
        cases hb : s.calls[i] with
        | true => exact absurd (by rw [hb]) htf
        | false => rfl
      | ofMap i k =>
        simp only [Sys.submitted, Sys.finished] at hs htf
        cases hm : s.maps[i]? with
        | none => rw [hm] at hs; cases hs
        | some m =>
          rw [hm] at hs htf
          simp only [decide_eq_true_eq, decide_eq_false_iff_not] at hs htf
          obtain ⟨st', b⟩ := bg_finish hs htf
          exact ⟨_, .map s i m st' hm b⟩

/-- **C83 (2)** `shutdown()` returns, whatever the order in which the input threads and the cluster go on, even if nobody ever iterates over the results: unless the iterator of a map that is not
over was closed or has raised. (The inputs are finitely many, and the cluster finishes its tasks.) -/
theorem shutdown_ends_partial {k : Kind} {s : Sys} (h : Reach k s) (hs : ShuttingDown s) (ho : Open s) : Inevitable s := by
  have I := sinv_run (sinv_init k) h
  clear h
  induction hn : total s using Nat.strongRecOn generalizing s with
  | ind n ih =>
    refine .later s (bstep_exists I ho hs) ?_
    intro s' b
    rcases bstep_shutting hs b with hs' | ⟨nm, nt, hr⟩
    · exact ih (total s') (hn ▸ bstep_decreases I b) hs' (bstep_open ho b) (sinv_step I b.sstep) rfl
    · exact .now s' nm nt hr

/-! ## what goes wrong -/

/-- the map can never be over: its pool is closed, and it has at least as many inputs left as calls of `consume_next` -/
def Stuck (m : Map) : Prop := m.st.cancelled = true ∨ (m.st.done = false ∧ m.st.opened = false ∧ m.st.main = .raised ∧ m.st.tokens ≤ m.E.n - m.st.taken)

theorem stuck_step {m : Map} {st' : St} (h : Stuck m) (st : Step m.E m.st st') : Stuck { m with st := st' } := by
  rcases h with h | ⟨h1, h2, h3, h4⟩
  · left; cases st <;> simp_all
  · cases st <;> simp_all [Stuck] <;> omega

/-- **C83 is violated**: if the user leaves the loop over a map's results early (or an error comes out of it) while enough inputs are left, then `shutdown()` never returns, unless the map is
cancelled; in particular, `with view.executor as ex: for x in ex.map(f, inputs): …` hangs when a task fails. -/
theorem closed_early_hangs_violated {s s' : Sys} (r : Run s s') (hu : s.user = .working ∨ ∃ nm nt, s.user = .emptying nm nt) (i : Nat) (m : Map) (hm : s.maps[i]? = some m) (h : Stuck m) :
    ∃ m', s'.maps[i]? = some m' ∧ (m'.st.cancelled = false → ∀ nm nt, s'.user ≠ .returned nm nt) := by
  have key : ∃ m', s'.maps[i]? = some m' ∧ Stuck m' ∧ (m'.st.cancelled = false → s'.user = .working ∨ s'.user = .crashed ∨ ∃ nm nt, s'.user = .emptying nm nt) := by
    induction r with
    | refl => exact ⟨m, hm, h, fun _ => hu.elim .inl (fun hu => .inr (.inr hu))⟩
    | step r st ih =>
      obtain ⟨x, hx, hst, hux⟩ := ih
      cases st with
      | submit => exact ⟨x, hx, hst, hux⟩
      | newMap E hk => exact ⟨x, by rw [List.getElem?_append_left (getElem?_lt hx)]; exact hx, hst, hux⟩
      | finish j hj => exact ⟨x, hx, hst, hux⟩
      | map j y st' hy st =>
        by_cases hj : i = j
        · subst hj
          rw [hx] at hy; cases hy
          exact ⟨_, List.getElem?_set_self (getElem?_lt hx), stuck_step hst st, fun hc => hux ((keeps_step st).canc hc)⟩
        · exact ⟨x, by rw [List.getElem?_set_ne (Ne.symm hj)]; exact hx, hst, hux⟩
      | close j y hy hmain hw =>
        by_cases hj : i = j
        · subst hj
          rw [hx] at hy; cases hy
          refine ⟨_, List.getElem?_set_self (getElem?_lt hx), ?_, fun hc => hux hc⟩
          rcases hst with h1 | ⟨h1, h2, h3, h4⟩
          · exact .inl h1
          · rw [h3] at hmain; rcases hmain with h | h <;> cases h
        · exact ⟨x, by rw [List.getElem?_set_ne (Ne.symm hj)]; exact hx, hst, hux⟩
      | shutdown hw hk => exact ⟨x, hx, hst, fun _ => .inr (.inr ⟨_, _, rfl⟩)⟩
      | crash hw hk => exact ⟨x, hx, hst, fun _ => .inr (.inl rfl)⟩
      | pass nm nt hw hd =>
        refine ⟨x, hx, hst, fun hc => ?_⟩
        rcases hst with h1 | ⟨h1, -⟩
        · rw [h1] at hc; cases hc
        · rw [hd x (List.mem_of_getElem? hx)] at h1; cases h1
      | ret nm nt ids hw hf =>
        refine ⟨x, hx, hst, fun hc => ?_⟩
        rcases hux hc with h | h | ⟨a, b, h⟩ <;> rw [hw] at h <;> cases h
  obtain ⟨m', h1, -, h3⟩ := key
  refine ⟨m', h1, fun hc nm nt hr => ?_⟩
  rcases h3 hc with h | h | ⟨a, b, h⟩ <;> rw [hr] at h <;> cases h

/-- five inputs, one at a time, in order; no task fails -/
def exE : Env := { n := 5, tail := false, max := 1, ordered := true, raises := fun _ => false }

/-- the hypotheses of `closed_early_hangs_violated` are met: the user takes the first result and breaks out of the loop, and `with executor:` ends -/
theorem break_hangs_violated : ∃ s, Reach .loadBalanced s ∧ s.user = .emptying 1 0 ∧ ∃ m, s.maps[0]? = some m ∧ m.st.yielded = [0] ∧ m.st.cancelled = false ∧ Stuck m := by
  have r : Run (init .loadBalanced) (init .loadBalanced) := .refl
  have r := r.step (.newMap _ exE rfl)
  have r := r.step (.map _ 0 _ _ rfl (.take _ (by decide) rfl rfl (by decide)))
  have r := r.step (.map _ 0 _ _ rfl (.submit _ rfl))
  have r := r.step (.map _ 0 _ _ rfl (.pop _ 0 [] (.inl rfl) rfl rfl rfl))
  have r := r.step (.map _ 0 _ _ rfl (.finish _ 0 (by decide) (by decide)))
  have r := r.step (.map _ 0 _ _ rfl (.yield _ 0 (.inl rfl) rfl (by decide) rfl (by decide)))
  have r := r.step (.close _ 0 _ rfl (.inl rfl) rfl)
  have r := r.step (.shutdown _ rfl rfl)
  exact ⟨_, r, rfl, _, rfl, rfl, rfl, .inr ⟨rfl, rfl, rfl, by decide⟩⟩

/-- **C83 is violated** for a map that is cancelled while its input thread has an input in hand: the task is submitted after `shutdown()` has returned. -/
theorem cancelled_map_late_task_violated : ∃ s, Reach .loadBalanced s ∧ s.user = .returned 1 0 ∧ ∃ m, s.maps[0]? = some m ∧ ∃ k, k < m.st.submitted ∧ k ∉ m.st.finished := by
  have r : Run (init .loadBalanced) (init .loadBalanced) := .refl
  have r := r.step (.newMap _ exE rfl)
  have r := r.step (.map _ 0 _ _ rfl (.take _ (by decide) rfl rfl (by decide)))
  have r := r.step (.map _ 0 _ _ rfl (.cancel _))
  have r := r.step (.shutdown _ rfl rfl)
  have r := r.step (.pass _ 1 0 rfl (by intro m hm; simp [init] at hm; subst hm; rfl))
  have r := r.step (.ret _ 1 0 _ rfl (by
    intro t ht
    cases t with
    | call i => simp [Sys.submitted, init] at ht
    | ofMap i k =>
      simp only [Sys.submitted] at ht
      cases i with
      | zero => simp [init, Imap.init] at ht
      | succ i => simp [init] at ht))
  have r := r.step (.map _ 0 _ _ rfl (.submit _ rfl))
  exact ⟨_, r, rfl, _, rfl, 0, by decide, by decide⟩

/-- the hypotheses of the theorems above are met: a call and a map with two inputs left; nobody iterates -/
example : ∃ s, Reach .loadBalanced s ∧ ShuttingDown s ∧ Open s ∧ s.calls = [false] ∧ ∃ m, s.maps[0]? = some m ∧ m.st.taken = 3 ∧ m.E.n = 5 := by
  have r : Run (init .loadBalanced) (init .loadBalanced) := .refl
  have r := r.step (.submit _)
  have r := r.step (.newMap _ exE rfl)
  have r := r.step (.map _ 0 _ _ rfl (.take _ (by decide) rfl rfl (by decide)))
  have r := r.step (.map _ 0 _ _ rfl (.submit _ rfl))
  have r := r.step (.shutdown _ rfl rfl)
  have r := r.step (.map _ 0 _ _ rfl (.finish _ 0 (by decide) (by decide)))
  have r := r.step (.map _ 0 _ _ rfl (.take _ (by decide) rfl rfl (by decide)))
  have r := r.step (.map _ 0 _ _ rfl (.submit _ rfl))
  have r := r.step (.map _ 0 _ _ rfl (.finish _ 1 (by decide) (by decide)))
  have r := r.step (.map _ 0 _ _ rfl (.take _ (by decide) rfl rfl (by decide)))
  refine ⟨_, r, .inl ⟨1, 1, rfl⟩, ?_, rfl, _, rfl, rfl, rfl⟩
  intro i m hm
  cases i with
  | zero => simp [init] at hm; subst hm; exact .inr rfl
  | succ i => simp [init] at hm

/-- … and `shutdown()` has returned, of an executor with a call, a map whose input iterator failed after one input, and a map without inputs -/
example : ∃ s, Reach .loadBalanced s ∧ s.user = .returned 2 1 := by
  have r : Run (init .loadBalanced) (init .loadBalanced) := .refl
  have r := r.step (.submit _)
  have r := r.step (.newMap _ { n := 1, tail := true, max := 0, ordered := false, raises := fun _ => true } rfl)
  have r := r.step (.newMap _ { n := 0, tail := false, max := 2, ordered := true, raises := fun _ => true } rfl)
  have r := r.step (.shutdown _ rfl rfl)
  have r := r.step (.map _ 0 _ _ rfl (.take _ (by decide) rfl rfl (by decide)))
  have r := r.step (.map _ 0 _ _ rfl (.submit _ rfl))
  have r := r.step (.map _ 1 _ _ rfl (.stop _ (by decide) rfl rfl (by decide) rfl))
  have r := r.step (.map _ 0 _ _ rfl (.fail _ (by decide) rfl rfl (by decide) rfl))
  have r := r.step (.pass _ 2 1 rfl (by intro m hm; simp [init] at hm; rcases hm with rfl | rfl <;> rfl))
  have r := r.step (.finish _ 0 rfl)
  have r := r.step (.map _ 0 _ _ rfl (.finish _ 0 (by decide) (by decide)))
  have r := r.step (.ret _ 2 1 _ rfl (by
    intro t ht
    cases t with
    | call i => cases i <;> simp [Sys.submitted, Sys.finished, init] at ht ⊢
    | ofMap i k =>
      simp only [Sys.submitted, Sys.finished] at ht ⊢
      match i with
      | 0 => simp [init, Imap.init] at ht ⊢; omega
      | 1 => simp [init, Imap.init] at ht
      | i + 2 => simp [init] at ht))
  exact ⟨_, r, rfl⟩

/-- **C83 is violated** by direct and broadcast views: `shutdown()` (and leaving `with view.executor:`) never returns normally, it raises AttributeError. -/
theorem direct_view_shutdown_violated {k : Kind} (hk : k ≠ .loadBalanced) {s : Sys} (h : Reach k s) (nm nt : Nat) : s.user ≠ .returned nm nt := by
  have key : s.kind = k ∧ (s.user = .working ∨ s.user = .crashed) := by
    induction h with
    | refl => exact ⟨rfl, .inl rfl⟩
    | step r st ih =>
      obtain ⟨h1, h2⟩ := ih
      cases st with
      | shutdown hw hl => rw [h1] at hl; exact absurd hl hk
      | crash hw hl => exact ⟨h1, .inr rfl⟩
      | pass nm nt hw hd => rcases h2 with h | h <;> rw [hw] at h <;> cases h
      | ret nm nt ids hw hf => rcases h2 with h | h <;> rw [hw] at h <;> cases h
      | _ => exact ⟨h1, h2⟩
  intro hr
  rcases key.2 with h | h <;> rw [hr] at h <;> cases h

end IPP.Exec
