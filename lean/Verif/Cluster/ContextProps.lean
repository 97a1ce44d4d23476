import Verif.Cluster.Context

/-!
# A `with` block gives back the cluster and the client (C108)
-/
namespace IPP.Cluster.Context

/-- Nothing of the cluster runs, and it holds nothing. -/
def Stopped (s : St) : Prop := s.controller = none ∧ s.sets = []

theorem startEngines_same {f n s s'} (h : startEngines f n s = .ok s' ∨ startEngines f n s = .error s') :
    s'.context = s.context ∧ s'.clients = s.clients ∧ s'.controller = s.controller := by
  unfold startEngines at h
  cases f <;> simp at h <;> subst h <;> exact ⟨rfl, rfl, rfl⟩

theorem startCluster_same {f n s s'} (h : startCluster f n s = .ok s') :
    s'.context = s.context ∧ s'.clients = s.clients := by
  unfold startCluster at h
  cases hc : s.controller with
  | none =>
    rw [hc] at h
    dsimp only at h
    split at h
    · cases h
    · have := startEngines_same (Or.inl h)
      exact ⟨this.1, this.2.1⟩
  | some b =>
    rw [hc] at h
    have := startEngines_same (Or.inl h)
    exact ⟨this.1, this.2.1⟩

theorem enter_ok {f n s s'} (h : enter f n s = .ok s') :
    s'.context = some s.clients.length ∧ s'.clients = s.clients ++ [true] := by
  unfold enter at h
  cases hs : startCluster f n s with
  | error e => rw [hs] at h; cases h
  | ok t =>
    rw [hs] at h
    dsimp only at h
    split at h
    · cases h
    · split at h
      · cases h
      · cases h
        have := startCluster_same hs
        simp [this.2]

theorem body_step (s : St) (b : Body) (c : Nat) (hc : s.context = some c)
    (hl : c < s.clients.length) :
    (bodyStep s b).context = some c ∧ c < (bodyStep s b).clients.length := by
  cases b with
  | startEngines f n =>
    simp only [bodyStep]
    cases h : startEngines f n s with
    | ok t => have := startEngines_same (Or.inl h); dsimp only; rw [this.1, this.2.1]; exact ⟨hc, hl⟩
    | error t => have := startEngines_same (Or.inr h); dsimp only; rw [this.1, this.2.1]; exact ⟨hc, hl⟩
  | connect => exact ⟨hc, by simp [bodyStep]; omega⟩
  | close c' => exact ⟨hc, by simpa [bodyStep, close] using hl⟩
  | registered n => exact ⟨hc, hl⟩
  | died i => exact ⟨hc, hl⟩
  | controllerDied => exact ⟨hc, hl⟩

theorem body_keeps (l : List Body) (s : St) (c : Nat) (hc : s.context = some c)
    (hl : c < s.clients.length) :
    (body l s).context = some c ∧ c < (body l s).clients.length := by
  induction l generalizing s with
  | nil => exact ⟨hc, hl⟩
  | cons b l ih =>
    have := body_step s b c hc hl
    exact ih _ this.1 this.2

theorem stopEngines_ok {s : St} {f} (h : ∀ e ∈ s.sets, f e.id = false) :
    stopEngines f s = .ok { s with sets := [], registered := 0 } := by
  unfold stopEngines
  have h1 : s.sets.any (fun e => f e.id) = false := by
    rw [List.any_eq_false]
    intro e he
    simp [h e he]
  have h2 : s.sets.filter (fun e => f e.id) = [] := by
    rw [List.filter_eq_nil_iff]
    intro e he
    simp [h e he]
  simp [h1, h2]

theorem closeContext_sets (async : Bool) (s : St) :
    (closeContext async s).sets = s.sets ∧ (closeContext async s).controller = s.controller := by
  unfold closeContext
  split
  · exact ⟨rfl, rfl⟩
  · split <;> exact ⟨rfl, rfl⟩

/-- Leaving the block when nothing raises: what stays. -/
theorem exit_ok (async : Bool) (fs : Nat → Bool) (s : St) (h : ∀ e ∈ s.sets, fs e.id = false) :
    ∃ s', exit async fs false s = .ok s' ∧ Stopped s' ∧
      s'.clients = (closeContext async s).clients ∧ s'.context = (closeContext async s).context := by
  unfold exit
  rw [stopEngines_ok (by rw [(closeContext_sets async s).1]; exact h)]
  dsimp only
  unfold stopController
  simp only [Bool.false_eq_true, and_false, if_false]
  exact ⟨_, rfl, ⟨rfl, rfl⟩, rfl, rfl⟩

/-- **After `async with`, and after `with` if an engine is still registered, the controller and all
engine sets are stopped and the client is closed**, whatever happened in the block; the user's
other clients are as they were. (Nothing raises on the way in or out.) -/
theorem block_gives_back_partial (async : Bool) (f : Step → Bool) (n : Nat) (s s1 : St)
    (l : List Body) (fs : Nat → Bool) (hin : enter f n s = .ok s1)
    (hs : ∀ e ∈ (body l s1).sets, fs e.id = false)
    (ha : async = true ∨ (body l s1).registered ≠ 0) :
    ∃ s2, exit async fs false (body l s1) = .ok s2 ∧ Stopped s2 ∧
      s2.clients[s.clients.length]? = some false ∧ s2.context = none ∧
      ∀ c, c ≠ s.clients.length → s2.clients[c]? = (body l s1).clients[c]? := by
  obtain ⟨h1, h2⟩ := enter_ok hin
  obtain ⟨h3, h4⟩ := body_keeps l s1 s.clients.length h1 (by rw [h2]; simp)
  obtain ⟨s2, e1, e2, e3, e4⟩ := exit_ok async fs (body l s1) hs
  have hcl : closeContext async (body l s1) =
      { close s.clients.length (body l s1) with context := none } := by
    unfold closeContext
    rw [h3]
    dsimp only
    rw [if_pos]
    rcases ha with h | h
    · simp [h]
    · simp [h]
  rw [hcl] at e3 e4
  refine ⟨s2, e1, e2, ?_, e4, ?_⟩
  · rw [e3]
    simp [close, h4]
  · intro c hc
    rw [e3]
    simp only [close]
    rw [List.getElem?_set_ne (fun e => hc e.symm)]

/-- **The cluster is stopped in any case** that stopping does not raise: also without engines, and
without a context. -/
theorem exit_stops (async : Bool) (fs : Nat → Bool) (s : St) (h : ∀ e ∈ s.sets, fs e.id = false) :
    ∃ s', exit async fs false s = .ok s' ∧ Stopped s' := by
  obtain ⟨s', h1, h2, _⟩ := exit_ok async fs s h
  exact ⟨s', h1, h2⟩

/-! ## Violations -/

/-- **`with` leaves its client open when no engine is registered at the end**, because a client
without engines is false. (`n = 0`, or the engines were shut down in the block, or died.) -/
theorem client_left_open_violated (f : Step → Bool) (n : Nat) (s s1 : St) (l : List Body)
    (fs : Nat → Bool) (hin : enter f n s = .ok s1)
    (hs : ∀ e ∈ (body l s1).sets, fs e.id = false) (h0 : (body l s1).registered = 0) :
    ∃ s2, exit false fs false (body l s1) = .ok s2 ∧ s2.clients = (body l s1).clients ∧
      s2.context = some s.clients.length := by
  obtain ⟨h1, h2⟩ := enter_ok hin
  obtain ⟨h3, _⟩ := body_keeps l s1 s.clients.length h1 (by rw [h2]; simp)
  obtain ⟨s2, e1, _, e3, e4⟩ := exit_ok false fs (body l s1) hs
  have hcl : closeContext false (body l s1) = body l s1 := by
    unfold closeContext
    rw [h3]
    simp [h0]
  rw [hcl] at e3 e4
  exact ⟨s2, e1, e3, by rw [e4, h3]⟩

/-- **If the engines do not come in time, controller, engines and client stay**: `__enter__`
raises, so `__exit__` is not called. -/
theorem enter_raises_violated (n : Nat) :
    enter (fun x => x == .wait) n {} =
      .error { controller := some true, sets := [⟨0, true⟩], clients := [true], registered := n,
               next := 1 } := by
  simp [enter, startCluster, startEngines]

/-- **If stopping one engine set raises, the controller goes on running.** -/
theorem stop_raises_violated (async : Bool) (fs : Nat → Bool) (fc : Bool) (s : St) (e : EngineSet)
    (he : e ∈ s.sets) (hf : fs e.id = true) :
    ∃ s', exit async fs fc s = .error s' ∧ s'.controller = s.controller ∧ e ∈ s'.sets := by
  unfold exit stopEngines
  have hs := closeContext_sets async s
  have h1 : (closeContext async s).sets.any (fun e => fs e.id) = true := by
    rw [hs.1, List.any_eq_true]
    exact ⟨e, he, hf⟩
  rw [if_pos h1]
  refine ⟨_, rfl, hs.2, ?_⟩
  dsimp only
  rw [hs.1]
  exact List.mem_filter.2 ⟨he, hf⟩

def ok (e : Except St St) : St := match e with | .ok s => s | .error s => s

/-- **A second block inside the first leaves the first client open**: there is one
`_context_client`. -/
theorem nested_violated :
    let s1 := ok (enter (fun _ => false) 4 {})
    let s2 := ok (enter (fun _ => false) 4 s1)
    let s3 := ok (exit true (fun _ => false) false s2)
    (ok (exit true (fun _ => false) false s3)).clients = [true, false] := by decide +kernel

/-- A block with a set that dies, one that is started, and a client of the user. -/
example : let s1 := ok (enter (fun _ => false) 4 {})
    ok (exit false (fun _ => false) false
      (body [.startEngines false 2, .died 0, .registered 2, .connect] s1)) =
    { controller := none, sets := [], clients := [false, true], registered := 0, context := none,
      next := 2 } := by decide +kernel

example : let s1 := ok (enter (fun _ => false) 4 {})
    (ok (exit false (fun _ => false) false (body [.registered 0] s1))).clients = [true] := by
  decide +kernel

end IPP.Cluster.Context
