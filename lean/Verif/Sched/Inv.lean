import Verif.Sched.Micro
import Verif.Sched.Spec

/-!
# Invariants of the scheduler (lemmas; the property theorems are in Props.lean)
-/
namespace IPP.Sched

/-! ### What the composite states change -/

section fields
variable (s : State) (o : Obs) (e : Engine)

@[simp] theorem recvBase_targets : (recvBase s o e).targets = s.targets := by unfold recvBase; dsimp only; split <;> rfl
@[simp] theorem recvBase_jobs : (recvBase s o e).jobs = s.jobs := by unfold recvBase; dsimp only; split <;> rfl
@[simp] theorem recvBase_trace : (recvBase s o e).trace = s.trace ++ [o] := by unfold recvBase; dsimp only; split <;> rfl
@[simp] theorem recvBase_pending : (recvBase s o e).pending = s.pending := by unfold recvBase; dsimp only; split <;> rfl
@[simp] theorem recvBase_retries : (recvBase s o e).retries = s.retries := by unfold recvBase; dsimp only; split <;> rfl
@[simp] theorem recvBase_completed : (recvBase s o e).completed = s.completed := by unfold recvBase; dsimp only; split <;> rfl
@[simp] theorem recvBase_failed : (recvBase s o e).failed = s.failed := by unfold recvBase; dsimp only; split <;> rfl
@[simp] theorem recvBase_allCompleted : (recvBase s o e).allCompleted = s.allCompleted := by unfold recvBase; dsimp only; split <;> rfl
@[simp] theorem recvBase_allFailed : (recvBase s o e).allFailed = s.allFailed := by unfold recvBase; dsimp only; split <;> rfl
@[simp] theorem recvBase_strandTimers : (recvBase s o e).strandTimers = s.strandTimers := by
  unfold recvBase; dsimp only; split <;> rfl
@[simp] theorem recvBase_queue : (recvBase s o e).queue = s.queue := by unfold recvBase; dsimp only; split <;> rfl
@[simp] theorem recvBase_queueMap : (recvBase s o e).queueMap = s.queueMap := by unfold recvBase; dsimp only; split <;> rfl
@[simp] theorem recvBase_allIds : (recvBase s o e).allIds = s.allIds := by unfold recvBase; dsimp only; split <;> rfl

theorem recvBase_loads : (recvBase s o e).loads = match s.targets.idxOf? e with
    | none => s.loads
    | some idx => s.loads.modify idx (· - 1) := by
  unfold recvBase
  cases h : s.targets.idxOf? e <;> simp only [h]

variable (m : MsgId) (idx : Nat)

@[simp] theorem addJob_jobs : (addJob idx s).jobs = s.jobs := by unfold addJob; split <;> rfl
@[simp] theorem addJob_trace : (addJob idx s).trace = s.trace := by unfold addJob; split <;> rfl
@[simp] theorem addJob_pending : (addJob idx s).pending = s.pending := by unfold addJob; split <;> rfl
@[simp] theorem addJob_retries : (addJob idx s).retries = s.retries := by unfold addJob; split <;> rfl
@[simp] theorem addJob_completed : (addJob idx s).completed = s.completed := by unfold addJob; split <;> rfl
@[simp] theorem addJob_failed : (addJob idx s).failed = s.failed := by unfold addJob; split <;> rfl
@[simp] theorem addJob_allCompleted : (addJob idx s).allCompleted = s.allCompleted := by unfold addJob; split <;> rfl
@[simp] theorem addJob_allFailed : (addJob idx s).allFailed = s.allFailed := by unfold addJob; split <;> rfl
@[simp] theorem addJob_strandTimers : (addJob idx s).strandTimers = s.strandTimers := by unfold addJob; split <;> rfl
@[simp] theorem addJob_queue : (addJob idx s).queue = s.queue := by unfold addJob; split <;> rfl
@[simp] theorem addJob_queueMap : (addJob idx s).queueMap = s.queueMap := by unfold addJob; split <;> rfl
@[simp] theorem addJob_allIds : (addJob idx s).allIds = s.allIds := by unfold addJob; split <;> rfl

@[simp] theorem sentState_jobs : (sentState s m idx e).jobs = s.jobs := by unfold sentState; dsimp only; split <;> simp
@[simp] theorem sentState_trace : (sentState s m idx e).trace = s.trace ++ [.send e m] := by unfold sentState; dsimp only; split <;> simp
@[simp] theorem sentState_retries : (sentState s m idx e).retries = s.retries := by unfold sentState; dsimp only; split <;> simp
@[simp] theorem sentState_completed : (sentState s m idx e).completed = s.completed := by unfold sentState; dsimp only; split <;> simp
@[simp] theorem sentState_failed : (sentState s m idx e).failed = s.failed := by unfold sentState; dsimp only; split <;> simp
@[simp] theorem sentState_allCompleted : (sentState s m idx e).allCompleted = s.allCompleted := by
  unfold sentState; dsimp only; split <;> simp
@[simp] theorem sentState_allFailed : (sentState s m idx e).allFailed = s.allFailed := by unfold sentState; dsimp only; split <;> simp
@[simp] theorem sentState_strandTimers : (sentState s m idx e).strandTimers = s.strandTimers := by
  unfold sentState; dsimp only; split <;> simp
@[simp] theorem sentState_queue : (sentState s m idx e).queue = s.queue := by unfold sentState; dsimp only; split <;> simp
@[simp] theorem sentState_queueMap : (sentState s m idx e).queueMap = s.queueMap := by unfold sentState; dsimp only; split <;> simp
@[simp] theorem sentState_allIds : (sentState s m idx e).allIds = s.allIds := by unfold sentState; dsimp only; split <;> simp

theorem sentState_targets (l : Int) (ht : s.targets[idx]? = some e) (hl : s.loads[idx]? = some l) :
    (sentState s m idx e).targets = s.targets.eraseIdx idx ++ [e] ∧ (sentState s m idx e).loads = s.loads.eraseIdx idx ++ [l + 1] := by
  unfold sentState addJob
  simp only [ht, hl]
  split <;> exact ⟨rfl, rfl⟩

theorem sentState_pending : (sentState s m idx e).pending = match s.pending e with
    | none => s.pending
    | some p => upd s.pending e (some (insertSet m p)) := by
  unfold sentState; simp only [addJob_pending]; split <;> simp_all

end fields

theorem takeBack_some {s s' : State} {e : Engine} {m : MsgId} {c : Cause} (h : takeBack s e m c = some s') :
    ∃ p j, s.pending e = some p ∧ m ∈ p ∧ s.jobs m = some j ∧ s' = { s with
        pending := upd s.pending e (some (p.filter (· ≠ m)))
        jobs := upd s.jobs m (some { j with blacklist := insertSet e j.blacklist })
        trace := s.trace ++ [.retry e m c] } := by
  unfold takeBack at h
  split at h
  · rename_i p j hp hj
    split at h
    · cases h
      exact ⟨p, j, hp, ‹_›, hj, rfl⟩
    · cases h
  · cases h

@[simp] theorem mem_insertSet (x y : MsgId) (l : List MsgId) : x ∈ insertSet y l ↔ x = y ∨ x ∈ l := by
  unfold insertSet
  split
  · constructor
    · exact Or.inr
    · rintro (rfl | h)
      · assumption
      · exact h
  · simp [or_comm]

/-! ### Loads -/

/-- The load the scheduler should record for `e`. -/
def loadStep (e : Engine) (l : Int) : Obs → Int
  | .registered e' => if e' = e then 0 else l
  | .send e' _ => if e' = e then l + 1 else l
  | .received e' _ _ _ => if e' = e then l - 1 else l
  | _ => l

def loadSpec (e : Engine) (tr : List Obs) : Int := tr.foldl (loadStep e) 0

@[simp] theorem loadSpec_snoc (e : Engine) (tr : List Obs) (o : Obs) : loadSpec e (tr ++ [o]) = loadStep e (loadSpec e tr) o := by
  simp [loadSpec, List.foldl_append]

structure LoadInv (cfg : Config) (s : State) : Prop where
  nodup : s.targets.Nodup
  reg : ∀ e, s.targets.count e + s.trace.count (.unregistered e) = s.trace.count (.registered e)
  load : s.loads = s.targets.map (fun e => loadSpec e s.trace)
  hwm : cfg.hwm ≠ 0 → ∀ e, loadSpec e s.trace ≤ (cfg.hwm : Int)
  once : ∀ e, s.trace.count (.registered e) ≤ 1
  strand : ∀ e ∈ s.strandTimers, Obs.unregistered e ∈ s.trace

theorem LoadInv.congr {cfg : Config} {s s' : State} (h : LoadInv cfg s) (ht : s'.targets = s.targets) (hl : s'.loads = s.loads)
    (htr : s'.trace = s.trace) (hst : ∀ e ∈ s'.strandTimers, e ∈ s.strandTimers) : LoadInv cfg s' := by
  obtain ⟨h2, h3, h4, h5, h6, h7⟩ := h
  refine ⟨?_, ?_, ?_, ?_, ?_, ?_⟩
  all_goals simp only [ht, hl, htr]
  all_goals first | assumption | skip
  exact fun e he => h7 e (hst e he)

/-- Observations that do not matter for loads. -/
def loadNeutral : Obs → Prop
  | .submitted .. | .retry .. | .relay .. | .fail .. | .stranded .. => True
  | _ => False

theorem LoadInv.emit {cfg : Config} {s s' : State} {o : Obs} (ho : loadNeutral o) (h : LoadInv cfg s) (ht : s'.targets = s.targets)
    (hl : s'.loads = s.loads) (htr : s'.trace = s.trace ++ [o]) (hst : ∀ e ∈ s'.strandTimers, e ∈ s.strandTimers) :
    LoadInv cfg s' := by
  obtain ⟨h2, h3, h4, h5, h6, h7⟩ := h
  have hn : ∀ e l, loadStep e l o = l := by intro e l; cases o <;> simp_all [loadNeutral, loadStep]
  have hu : ∀ e, (s.trace ++ [o]).count (.unregistered e) = s.trace.count (.unregistered e) := by
    intro e; cases o <;> simp_all [loadNeutral, List.count_append]
  have hr : ∀ e, (s.trace ++ [o]).count (.registered e) = s.trace.count (.registered e) := by
    intro e; cases o <;> simp_all [loadNeutral, List.count_append]
  refine ⟨?_, ?_, ?_, ?_, ?_, ?_⟩
  all_goals simp only [ht, hl, htr, loadSpec_snoc, hn, hu, hr]
  all_goals first | assumption | skip
  exact fun e he => List.mem_append_left _ (h7 e (hst e he))

theorem LoadInv.loads_get {cfg : Config} {s : State} (h : LoadInv cfg s) {i : Nat} {e : Engine} (hi : s.targets[i]? = some e) :
    s.loads[i]? = some (loadSpec e s.trace) := by
  rw [h.load, List.getElem?_map, hi]; rfl

theorem not_mem_eraseIdx {l : List Nat} (h : l.Nodup) {i : Nat} {e : Nat} (hi : l[i]? = some e) : e ∉ l.eraseIdx i := by
  intro hm
  rw [List.mem_eraseIdx_iff_getElem?] at hm
  obtain ⟨j, hj, hje⟩ := hm
  rw [List.getElem?_eq_some_iff] at hje hi
  obtain ⟨h1, h1'⟩ := hje
  obtain ⟨h2, h2'⟩ := hi
  exact hj ((List.getElem_inj h).mp (h1'.trans h2'.symm))

theorem count_eraseIdx {l : List Nat} {i : Nat} {e : Nat} (hi : l[i]? = some e) (x : Nat) :
    (l.eraseIdx i).count x + (if x = e then 1 else 0) = l.count x := by
  induction l generalizing i with
  | nil => simp at hi
  | cons a l ih =>
    cases i with
    | zero =>
      simp at hi; subst hi
      simp only [List.eraseIdx_cons_zero, List.count_cons]
      by_cases h : x = a
      · simp [h]
      · simp [h, Ne.symm h]
    | succ i =>
      simp only [List.getElem?_cons_succ] at hi
      have := ih hi
      simp only [List.eraseIdx_cons_succ, List.count_cons]
      omega

theorem eraseIdx_map' (f : Nat → Int) (l : List Nat) (i : Nat) : (l.map f).eraseIdx i = (l.eraseIdx i).map f := by
  induction l generalizing i with
  | nil => rfl
  | cons a l ih => cases i <;> simp [ih]

theorem LoadInv.send {cfg : Config} {s : State} {m : MsgId} {idx : Nat} {e : Engine} (h : LoadInv cfg s)
    (ht : s.targets[idx]? = some e) (hl : cfg.hwm = 0 ∨ s.loads.getD idx 0 < (cfg.hwm : Int)) :
    LoadInv cfg (sentState s m idx e) := by
  have hl' := h.loads_get ht
  obtain ⟨h1, h2⟩ := sentState_targets s e m idx _ ht hl'
  have hne : ∀ x ∈ s.targets.eraseIdx idx, x ≠ e := fun x hx he => not_mem_eraseIdx h.nodup ht (he ▸ hx)
  refine ⟨?_, ?_, ?_, ?_, ?_, ?_⟩
  · rw [h1, List.nodup_append]
    refine ⟨h.nodup.sublist (List.eraseIdx_sublist _ _), by simp, ?_⟩
    intro a ha b hb
    simp only [List.mem_singleton] at hb
    exact hb ▸ hne a ha
  · intro x
    have hc := count_eraseIdx ht x
    have := h.reg x
    rw [h1, sentState_trace, List.count_append, List.count_append, List.count_append]
    simp only [List.count_cons, List.count_nil]
    by_cases hx : x = e
    · subst hx
      simp at hc ⊢
      omega
    · simp [hx, Ne.symm hx] at hc ⊢
      omega
  · rw [h2, h1, sentState_trace, List.map_append]
    congr 1
    · rw [h.load, eraseIdx_map']
      refine List.map_congr_left fun x hx => ?_
      simp [loadStep, Ne.symm (hne x hx)]
    · simp [loadStep]
  · intro hh x
    rw [sentState_trace, loadSpec_snoc]
    have hx := h.hwm hh x
    simp only [loadStep]
    split
    · rename_i hxe
      subst hxe
      have := hl.resolve_left hh
      rw [List.getD_eq_getElem?_getD, hl'] at this
      simp at this
      omega
    · exact hx
  · intro x; simpa [List.count_append] using h.once x
  · intro x hx
    rw [sentState_strandTimers] at hx
    rw [sentState_trace]
    exact List.mem_append_left _ (h.strand x hx)

theorem modify_map {l : List Nat} (h : l.Nodup) {i : Nat} {e : Nat} (hi : l[i]? = some e) (f : Nat → Int) :
    (l.map f).modify i (· - 1) = l.map (fun x => if e = x then f x - 1 else f x) := by
  apply List.ext_getElem?
  intro j
  rw [List.getElem?_modify, List.getElem?_map, List.getElem?_map]
  cases hj : l[j]? with
  | none => simp
  | some x =>
    simp only [Option.map_some, Option.some.injEq]
    by_cases hij : i = j
    · subst hij
      rw [hi] at hj
      cases hj
      simp
    · have : e ≠ x := by
        rintro rfl
        rw [List.getElem?_eq_some_iff] at hi hj
        obtain ⟨h1, h1'⟩ := hi
        obtain ⟨h2, h2'⟩ := hj
        exact hij ((List.getElem_inj h).mp (h1'.trans h2'.symm))
      simp [hij, this]

theorem idxOf?_some {l : List Nat} {e i : Nat} (h : l.idxOf? e = some i) : l[i]? = some e := by
  rw [List.idxOf?, List.findIdx?_eq_some_iff_getElem] at h
  obtain ⟨h1, h2, _⟩ := h
  rw [List.getElem?_eq_some_iff]
  exact ⟨h1, by simpa using h2⟩

theorem idxOf?_none {l : List Nat} {e : Nat} (h : l.idxOf? e = none) : e ∉ l := by
  intro hm
  rw [List.idxOf?, List.findIdx?_eq_none_iff] at h
  simpa using h e hm

theorem LoadInv.recvBase {cfg : Config} {ev : Event} {s : State} {o : Obs} {e : Engine} {m : MsgId} {ok dm : Bool}
    (h : LoadInv cfg s) (ho : IsReply ev s o e m ok dm) : LoadInv cfg (recvBase s o e) := by
  have hr : ∀ x, (s.trace ++ [o]).count (.registered x) = s.trace.count (.registered x) := by
    intro x; rcases ho with ⟨rfl, _⟩ | ⟨rfl, _⟩ <;> simp [List.count_append]
  have hu : ∀ x, (s.trace ++ [o]).count (.unregistered x) = s.trace.count (.unregistered x) := by
    intro x; rcases ho with ⟨rfl, _⟩ | ⟨rfl, _⟩ <;> simp [List.count_append]
  refine ⟨by simpa using h.nodup, ?_, ?_, ?_, ?_, ?_⟩
  · intro x; simp only [recvBase_targets, recvBase_trace, hr, hu]; exact h.reg x
  · rw [recvBase_targets, recvBase_trace, recvBase_loads]
    rcases ho with ⟨rfl, _⟩ | ⟨rfl, _, _, _, hne, _⟩
    · simp only [loadSpec_snoc, loadStep]
      split
      · rename_i hi
        rw [h.load]
        refine List.map_congr_left fun x hx => ?_
        rw [if_neg]
        rintro rfl
        exact idxOf?_none hi hx
      · rename_i idx hi
        rw [h.load, modify_map h.nodup (idxOf?_some hi)]
    · have : s.targets.idxOf? e = none := by
        rw [List.idxOf?, List.findIdx?_eq_none_iff]
        intro x hx
        simp only [beq_eq_false_iff_ne]
        rintro rfl
        exact hne hx
      rw [this]
      simp only [loadSpec_snoc, loadStep]
      exact h.load
  · intro hh x
    have := h.hwm hh x
    rw [recvBase_trace, loadSpec_snoc]
    rcases ho with ⟨rfl, _⟩ | ⟨rfl, _⟩ <;> simp only [loadStep]
    · split <;> omega
    · exact this
  · intro x; rw [recvBase_trace, hr]; exact h.once x
  · intro x hx
    rw [recvBase_strandTimers] at hx
    rw [recvBase_trace]
    exact List.mem_append_left _ (h.strand x hx)

theorem loadInv_closed (cfg : Config) (ev : Event) : Closed cfg ev (LoadInv cfg) := by
  intro s s' hm h
  cases hm with
  | book hs => exact h.congr hs.targets hs.loads hs.trace hs.strandTimers
  | fail s' m why hs hok =>
    have h' : LoadInv cfg s' := h.congr hs.targets hs.loads hs.trace hs.strandTimers
    exact h'.emit (o := .fail m why) trivial rfl rfl rfl (fun _ h => h)
  | send m j idx target hj ht hl => exact h.send ht hl
  | register e hev hfresh =>
    have hc : s.trace.count (.registered e) = 0 := List.count_eq_zero.mpr hfresh
    have hreg := h.reg
    have he : e ∉ s.targets := by
      have := hreg e
      rw [hc] at this
      exact List.count_eq_zero.mp (by omega)
    refine ⟨List.nodup_cons.mpr ⟨he, h.nodup⟩, ?_, ?_, ?_, ?_, ?_⟩
    · intro x
      have := hreg x
      simp only [List.count_cons, List.count_append, List.count_nil]
      by_cases hx : e = x
      · subst hx; simp; omega
      · simp [hx]; omega
    · simp only [loadSpec_snoc, loadStep, List.map_cons, if_true]
      rw [h.load]
      congr 1
      refine List.map_congr_left fun x hx => ?_
      rw [if_neg]
      rintro rfl
      exact he hx
    · intro hh x
      have := h.hwm hh x
      simp only [loadSpec_snoc, loadStep]
      split <;> omega
    · intro x
      have := h.once x
      simp only [List.count_append, List.count_cons, List.count_nil]
      by_cases hx : e = x
      · subst hx; simp [hc]
      · simp [hx]; omega
    · exact fun x hx => List.mem_append_left _ (h.strand x hx)
  | unregister e idx hev hidx =>
    have ht := idxOf?_some hidx
    refine ⟨h.nodup.sublist (List.eraseIdx_sublist _ _), ?_, ?_, ?_, ?_, ?_⟩
    · intro x
      have := h.reg x
      have hc := count_eraseIdx ht x
      simp only [List.count_append, List.count_cons, List.count_nil]
      by_cases hx : x = e
      · subst hx; simp at hc ⊢; omega
      · simp [hx, Ne.symm hx] at hc ⊢; omega
    · simp only [loadSpec_snoc, loadStep]
      rw [h.load, eraseIdx_map']
    · intro hh x
      simp only [loadSpec_snoc, loadStep]
      exact h.hwm hh x
    · intro x; simpa [List.count_append] using h.once x
    · exact fun x hx => List.mem_append_left _ (h.strand x hx)
  | strand e he =>
    refine ⟨h.nodup, h.reg, h.load, h.hwm, h.once, fun x hx => ?_⟩
    rcases List.mem_append.mp hx with hx | hx
    · exact h.strand x hx
    · simp at hx; exact hx ▸ he
  | submit m sub => exact h.emit (o := .submitted m sub) trivial rfl rfl rfl (fun _ h => h)
  | submitJob m sub => exact h.emit (o := .submitted m sub) trivial rfl rfl rfl (fun _ h => h)
  | recv e m ok dm o ho => exact h.recvBase ho
  | recvDec e m o r ho => exact (h.recvBase ho).congr rfl rfl rfl (fun _ h => h)
  | recvRetry e m o r s' ho hr ht =>
    obtain ⟨p, j, _, _, _, rfl⟩ := takeBack_some ht
    exact (h.recvBase ho).emit (o := .retry e m .failure) trivial rfl rfl rfl (fun _ h => h)
  | recvUnmet e m ok o s' ho ht =>
    obtain ⟨p, j, _, _, _, rfl⟩ := takeBack_some ht
    exact (h.recvBase ho).emit (o := .retry e m .unmet) trivial rfl rfl rfl (fun _ h => h)
  | recvRelay e m ok o r ho => exact (h.recvBase ho).emit (o := .relay e m ok) trivial rfl rfl rfl (fun _ h => h)
  | popPending => exact h.congr rfl rfl rfl (fun _ h => h)
  | complete => exact h.congr rfl rfl rfl (fun _ h => h)
  | failedBy => exact h.congr rfl rfl rfl (fun _ h => h)

/-! ### Inputs in the trace come from events -/

def FromEvents (E : List Event) : Obs → Prop
  | .registered e => Event.register e ∈ E
  | .unregistered e => Event.unregister e ∈ E
  | .submitted m sub => Event.submit m sub ∈ E
  | .received e m ok dm => Event.result e m ok dm ∈ E
  | .stranded e _ => Event.strandTimer e ∈ E
  | _ => True

def TraceFrom (E : List Event) (s : State) : Prop := ∀ o ∈ s.trace, FromEvents E o

theorem TraceFrom.congr {E : List Event} {s s' : State} (h : TraceFrom E s) (htr : s'.trace = s.trace) : TraceFrom E s' := by
  unfold TraceFrom; rw [htr]; exact h

theorem TraceFrom.emit {E : List Event} {s s' : State} {o : Obs} (h : TraceFrom E s) (htr : s'.trace = s.trace ++ [o])
    (ho : FromEvents E o) : TraceFrom E s' := by
  unfold TraceFrom
  rw [htr]
  intro x hx
  rcases List.mem_append.mp hx with hx | hx
  · exact h x hx
  · simp at hx; exact hx ▸ ho

theorem fromEvents_reply {E : List Event} {ev : Event} (hE : ev ∈ E) {s : State} {o : Obs} {e : Engine} {m : MsgId} {ok dm : Bool}
    (ho : IsReply ev s o e m ok dm) : FromEvents E o := by
  rcases ho with ⟨rfl, rfl⟩ | ⟨rfl, _, _, rfl, _⟩ <;> exact hE

theorem traceFrom_closed (cfg : Config) (ev : Event) (E : List Event) (hE : ev ∈ E) : Closed cfg ev (TraceFrom E) := by
  intro s s' hm h
  cases hm with
  | book hs => exact h.congr hs.trace
  | fail s' m why hs hok => exact TraceFrom.emit (s := s') (h.congr hs.trace) (o := .fail m why) rfl trivial
  | send m j idx target => exact h.emit (o := .send target m) (by simp) trivial
  | register e hev => exact h.emit (o := .registered e) rfl (by subst hev; exact hE)
  | unregister e idx hev hidx => exact h.emit (o := .unregistered e) rfl (by subst hev; exact hE)
  | strand e he => exact h.congr rfl
  | submit m sub hev => exact h.emit (o := .submitted m sub) rfl (by subst hev; exact hE)
  | submitJob m sub j hev => exact h.emit (o := .submitted m sub) rfl (by subst hev; exact hE)
  | recv e m ok dm o ho => exact h.emit (by simp) (fromEvents_reply hE ho)
  | recvDec e m o r ho => exact h.emit (by simp) (fromEvents_reply hE ho)
  | recvRetry e m o r s' ho hr ht =>
    obtain ⟨p, j, _, _, _, rfl⟩ := takeBack_some ht
    exact (h.emit (s' := recvBase s o e) (by simp) (fromEvents_reply hE ho)).emit (o := .retry e m .failure) rfl trivial
  | recvUnmet e m ok o s' ho ht =>
    obtain ⟨p, j, _, _, _, rfl⟩ := takeBack_some ht
    exact (h.emit (s' := recvBase s o e) (by simp) (fromEvents_reply hE ho)).emit (o := .retry e m .unmet) rfl trivial
  | recvRelay e m ok o r ho =>
    exact (h.emit (s' := recvBase s o e) (by simp) (fromEvents_reply hE ho)).emit (o := .relay e m ok) rfl trivial
  | popPending => exact h.congr rfl
  | complete => exact h.congr rfl
  | failedBy => exact h.congr rfl

theorem loadInv_init (cfg : Config) : LoadInv cfg {} :=
  ⟨by simp, by simp, by simp, by intro _ e; simp [loadSpec], by simp, by simp⟩

/-! ### Induction over histories -/

theorem Fresh.snoc {evs : List Event} {ev : Event} (h : Fresh (evs ++ [ev])) : Fresh evs := by
  obtain ⟨h1, h2⟩ := h
  rw [List.filterMap_append] at h1 h2
  exact ⟨(List.nodup_append.mp h1).1, (List.nodup_append.mp h2).1⟩

theorem snoc_induction {α : Type _} {P : List α → Prop} (nil : P []) (snoc : ∀ l a, P l → P (l ++ [a])) (l : List α) : P l := by
  have : ∀ l : List α, P l.reverse := by
    intro l
    induction l with
    | nil => exact nil
    | cons a l ih => rw [List.reverse_cons]; exact snoc _ _ ih
  simpa using this l.reverse

theorem Fresh.freshIn {cfg : Config} {evs : List Event} {ev : Event} (hf : Fresh (evs ++ [ev])) {s : State}
    (hl : LoadInv cfg s) (ht : TraceFrom evs s) : FreshIn s ev := by
  obtain ⟨h1, h2⟩ := hf
  rw [List.filterMap_append, List.nodup_append] at h1 h2
  cases ev with
  | submit m sub =>
    intro sub' hm
    have h3 : Event.submit m sub' ∈ evs := ht _ hm
    exact h1.2.2 m (List.mem_filterMap.mpr ⟨_, h3, rfl⟩) m (by simp [Event.subId]) rfl
  | register e =>
    intro hm
    have h3 : Event.register e ∈ evs := ht _ hm
    exact h2.2.2 e (List.mem_filterMap.mpr ⟨_, h3, rfl⟩) e (by simp [Event.regId]) rfl
  | strandTimer e =>
    intro he hm
    have h3 := hl.strand e he
    have h4 := hl.reg e
    have h5 := hl.once e
    have h6 := List.count_pos_iff.mpr h3
    have h7 := List.count_pos_iff.mpr hm
    omega
  | unregister e => trivial
  | result e m ok dm => trivial
  | jobTimer m tid => trivial

theorem run_base (cfg : Config) (evs : List Event) (hf : Fresh evs) :
    LoadInv cfg (run cfg evs) ∧ TraceFrom evs (run cfg evs) := by
  induction evs using snoc_induction with
  | nil => exact ⟨loadInv_init cfg, by intro o ho; simp [run] at ho⟩
  | snoc evs ev ih =>
    obtain ⟨h1, h2⟩ := ih hf.snoc
    have hfi := hf.freshIn h1 h2
    rw [run_snoc]
    refine ⟨step_pres (loadInv_closed cfg ev) _ h1 hfi, ?_⟩
    refine step_pres (traceFrom_closed cfg ev _ (by simp)) _ ?_ hfi
    intro o ho
    have := h2 o ho
    cases o <;> simp_all [FromEvents]

/-- The induction principle for histories: what every atomic step preserves holds after every history. -/
theorem run_inv (cfg : Config) (evs : List Event) (hf : Fresh evs) (I : State → Prop) (h0 : I {})
    (hI : ∀ ev ∈ evs, Closed cfg ev I) : I (run cfg evs) := by
  induction evs using snoc_induction with
  | nil => exact h0
  | snoc evs ev ih =>
    have hb := run_base cfg evs hf.snoc
    rw [run_snoc]
    exact step_pres (hI ev (by simp)) _ (ih hf.snoc fun ev h => hI ev (by simp [h])) (hf.freshIn hb.1 hb.2)

/-! ### Outstanding tasks vs. loads -/

theorem outstanding_snoc (e : Engine) (tr : List Obs) (o : Obs) : outstanding e (tr ++ [o]) = (match o with
    | .send e' m => if e' = e then outstanding e tr ++ [m] else outstanding e tr
    | .received e' m _ _ => if e' = e then (outstanding e tr).erase m else outstanding e tr
    | _ => outstanding e tr) := by
  unfold outstanding
  rw [List.foldl_append]
  cases o <;> rfl

theorem Faithful.snoc {tr : List Obs} {o : Obs} (h : Faithful (tr ++ [o])) : Faithful tr := by
  intro p e m ok dm q hq
  exact h p e m ok dm (q ++ [o]) (by rw [hq]; simp)

theorem Faithful.last {tr : List Obs} {e m ok dm} (h : Faithful (tr ++ [.received e m ok dm])) : m ∈ outstanding e tr :=
  h tr e m ok dm [] rfl

theorem Faithful.prefix {tr tr' : List Obs} (h : Faithful (tr ++ tr')) : Faithful tr := by
  intro p e m ok dm q hq
  exact h p e m ok dm (q ++ tr') (by rw [hq]; simp)

/-- Nothing was sent to an engine before it registered. -/
def SendReg (tr : List Obs) : Prop := ∀ p e m q, tr = p ++ .send e m :: q → Obs.registered e ∈ p

theorem outstanding_of_no_send (e : Engine) (tr : List Obs) (h : ∀ m, Obs.send e m ∉ tr) : outstanding e tr = [] := by
  induction tr using snoc_induction with
  | nil => rfl
  | snoc tr o ih =>
    rw [outstanding_snoc, ih (fun m hm => h m (by simp [hm]))]
    cases o <;> simp
    rename_i e' m
    intro he
    subst he
    exact h m (by simp)

theorem loadSpec_eq_outstanding (e : Engine) (tr : List Obs) (hf : Faithful tr) (hr : tr.count (.registered e) ≤ 1)
    (hs : ∀ p m q, tr = p ++ .send e m :: q → Obs.registered e ∈ p) : loadSpec e tr = (outstanding e tr).length := by
  induction tr using snoc_induction with
  | nil => rfl
  | snoc tr o ih =>
    have hr' : tr.count (.registered e) ≤ 1 := by rw [List.count_append] at hr; omega
    have ih := ih hf.snoc hr' (fun p m q hq => hs p m (q ++ [o]) (by rw [hq]; simp))
    rw [loadSpec_snoc, outstanding_snoc, ih]
    cases o with
    | registered e' =>
      simp only [loadStep]
      split
      · rename_i he
        subst he
        have hc : tr.count (.registered e') = 0 := by
          simp only [List.count_append, List.count_cons, List.count_nil, beq_self_eq_true, if_true] at hr
          omega
        have : outstanding e' tr = [] := by
          apply outstanding_of_no_send
          intro m hm
          obtain ⟨p, q, hpq⟩ := List.append_of_mem hm
          have := hs p m (q ++ [.registered e']) (by rw [hpq]; simp)
          exact List.count_eq_zero.mp hc (by rw [hpq]; simp [this])
        simp [this]
      · rfl
    | send e' m => simp only [loadStep]; split <;> simp
    | received e' m ok dm =>
      simp only [loadStep]
      split
      · rename_i he
        subst he
        have hm := hf.last
        have hpos : 0 < (outstanding e' tr).length := List.length_pos_of_mem hm
        rw [List.length_erase_of_mem hm]
        omega
      · rfl
    | _ => rfl

end IPP.Sched
