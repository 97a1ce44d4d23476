import Verif.Cluster.AppProps
/-!
# `ipcluster start` and `ipcluster engines`: when the process ends, and what it has done by then (property C86)
-/
namespace IPP.Ipcluster

/-- what an event puts into the queue -/
def Ev.post (cf : Conf) : Ev → Option Cb
  | .iter => none
  | .signal => some (match cf.kind with
    | .start => .callStop
    | .engines => .relay)
  | .startDone ok x y => some (.startDone ok x y)
  | .stopDone ok => some (.stopDone ok)
  | .timer => some .timer
  | .enginesStop => some .enginesStop
  | .controllerStop => some .controllerStop

theorem step_post (cf : Conf) (a : App) (e : Ev) : step cf a e = match e.post cf with
    | none => iter cf a
    | some c => a.push c := by cases e <;> rfl

theorem run_snoc (cf : Conf) (h : List Ev) (e : Ev) : run cf (h ++ [e]) = step cf (run cf h) e := by simp [run]

/-- induction over the life of the process: `I` about the state, `J` about the entries of the queue -/
theorem run_ind (cf : Conf) (I : App → Prop) (J : App → Cb → Prop)
    (hc : ∀ a c, a.ended = none → I a → J a c → I (callback cf a c) ∧ (∀ x, J a x → J (callback cf a c) x) ∧ ∀ x ∈ (callback cf a c).queue, x ∈ a.queue ∨ J (callback cf a c) x)
    (hq : ∀ a q, I a → I { a with queue := q }) (he : ∀ a, I a → a.ended = none → a.flag = true → I { a with ended := some 0 })
    (jq : ∀ a q x, J a x → J { a with queue := q } x) (je : ∀ a x, J a x → J { a with ended := some 0 } x)
    (h0 : I (init cf)) (j0 : J (init cf) .callStart) (h : List Ev)
    (hp : ∀ g e c, g ++ [e] <+: h → e.post cf = some c → J (run cf g) c) : I (run cf h) ∧ ∀ x ∈ (run cf h).queue, J (run cf h) x := by
  have fold : ∀ (l : List Cb) (b : App), (∀ c ∈ l, J b c) → I b → (∀ x ∈ b.queue, J b x) → I (l.foldl (handle cf) b) ∧ ∀ x ∈ (l.foldl (handle cf) b).queue, J (l.foldl (handle cf) b) x := by
    intro l
    induction l with
    | nil => intro b _ hb hx; exact ⟨hb, hx⟩
    | cons c t ih =>
      intro b hl hb hx
      simp only [List.foldl_cons]
      by_cases hen : b.ended = none
      · have e : handle cf b c = callback cf b c := by simp [handle, hen]
        have := hc b c hen hb (hl c (List.mem_cons_self ..))
        rw [e]
        exact ih _ (fun d hd => this.2.1 d (hl d (List.mem_cons_of_mem _ hd))) this.1 (fun x hx' => (this.2.2 x hx').elim (fun hy => this.2.1 x (hx x hy)) id)
      · have e : handle cf b c = b := by
          unfold handle
          rw [if_pos]
          cases hb : b.ended with
          | none => exact absurd hb hen
          | some => rfl
        rw [e]
        exact ih _ (fun d hd => hl d (List.mem_cons_of_mem _ hd)) hb hx
  have gen : ∀ g, g <+: h → I (run cf g) ∧ ∀ x ∈ (run cf g).queue, J (run cf g) x := by
    intro g
    induction hn : g.length generalizing g with
    | zero =>
      intro _
      have : g = [] := List.eq_nil_of_length_eq_zero hn
      subst this
      exact ⟨h0, fun x hx => by simp only [run, List.foldl_nil, init, List.mem_singleton] at hx ⊢; subst hx; exact j0⟩
    | succ n ih =>
      intro hg
      have hne : g ≠ [] := by intro hx; subst hx; simp at hn
      have hd := List.dropLast_concat_getLast hne
      generalize g.dropLast = g' at hd
      generalize g.getLast hne = e at hd
      subst hd
      have hl : g'.length = n := by simp at hn; omega
      have hi := ih g' hl ((List.prefix_append g' [e]).trans hg)
      rw [run_snoc, step_post]
      cases hpe : e.post cf with
      | some c =>
        refine ⟨hq _ _ hi.1, fun x hx => jq _ _ _ ?_⟩
        simp only [App.push, List.mem_append, List.mem_singleton] at hx
        rcases hx with hx | rfl
        · exact hi.2 x hx
        · exact hp g' e x hg hpe
      | none =>
        simp only
        unfold iter
        split
        · exact hi
        · have := fold (run cf g').queue { (run cf g') with queue := [] } (fun c hc' => jq _ _ _ (hi.2 c hc')) (hq _ _ hi.1) (fun _ hx => by cases hx)
          simp only
          split
          · exact this
          · rename_i hs
            split
            · rename_i hf
              exact ⟨he _ this.1 (by simpa using hs) hf, fun x hx => je _ _ (this.2 x hx)⟩
            · exact this
  exact gen h (List.prefix_refl h)

theorem prefix_mem {g h : List Ev} {e : Ev} (hg : g ++ [e] <+: h) : e ∈ h := hg.subset (by simp)

/-- **C86 (the cluster is stopped once)** Whatever happens, a process of `ipcluster` calls `stop_cluster` of its cluster at most once before it leaves its loop. -/
theorem stops_at_most_once (cf : Conf) (h : List Ev) : (run cf h).begun ≤ 1 ∧ (run cf h).finished ≤ (run cf h).begun := by
  have := (run_ind cf (fun a => a.begun = (if a.stopping then 1 else 0) ∧ a.finished + (if a.inStop then 1 else 0) ≤ a.begun) (fun _ _ => True) ?_ ?_ ?_ ?_ ?_ ?_ trivial h (fun _ _ _ _ _ => trivial)).1
  · rcases this with ⟨h1, h2⟩
    constructor
    · rw [h1]; split <;> omega
    · omega
  · intro a c _ ha _
    refine ⟨?_, fun _ _ => trivial, fun _ _ => .inr trivial⟩
    rcases callback_cases cf a c with ⟨-, e⟩ | ⟨-, e⟩ | ⟨-, hs, e⟩ | ⟨ok, -, hi, e⟩ | ⟨-, e⟩ | ⟨-, -, e⟩ | ⟨-, e⟩ | ⟨x, y, -, -, e⟩ | ⟨hm, -⟩
    · rw [e]; exact ha
    · rw [e]; exact ha
    · rw [e]
      simp only [hs, Bool.false_eq_true, if_false] at ha
      refine ⟨by simp [ha.1], ?_⟩
      have := ha.2
      simp only [if_true]
      have : a.finished = 0 := by omega
      omega
    · rw [e]
      simp only [hi, if_true] at ha
      cases ok
      · refine ⟨ha.1, ?_⟩
        simp only [Bool.false_eq_true, if_false]
        omega
      · refine ⟨ha.1, ?_⟩
        simp only [if_true, App.push, Bool.false_eq_true, if_false]
        omega
    · rw [e]; exact ha
    · rw [e]; exact ha
    · rw [e]; exact ha
    · rw [e]; exact ha
    · rw [hm.begun, hm.stopping, hm.finished, hm.inStop]; exact ha
  · exact fun _ _ h => h
  · exact fun _ h _ _ => h
  · exact fun _ _ _ _ => trivial
  · exact fun _ _ _ => trivial
  · exact ⟨rfl, Nat.le_refl _⟩

/-- **C86 (ends with the cluster stopped)** `ipcluster start` without `--daemonize` leaves its loop only after the one call of `stop_cluster` has succeeded, and its exit code is 0. -/
theorem start_ends_stopped (cf : Conf) (hk : cf.kind = .start) (hd : cf.daemonize = false) (h : List Ev) (code : Nat) (he : (run cf h).ended = some code) :
    code = 0 ∧ (run cf h).begun = 1 ∧ (run cf h).finished = 1 := by
  have := (run_ind cf (fun a => (a.flag = true → 1 ≤ a.finished) ∧ (∀ n, a.ended = some n → n = 0 ∧ 1 ≤ a.finished)) (fun a x => x = .loopStop → 1 ≤ a.finished) ?_ ?_ ?_ ?_ ?_ ?_ ?_ h ?_).1.2 _ he
  · have h1 := stops_at_most_once cf h
    exact ⟨this.1, by omega, by omega⟩
  · intro a c hn ha hj
    rcases callback_cases cf a c with ⟨-, e⟩ | ⟨-, e⟩ | ⟨-, hs, e⟩ | ⟨ok, -, hi, e⟩ | ⟨hc, e⟩ | ⟨-, -, e⟩ | ⟨-, e⟩ | ⟨x, y, -, hx, e⟩ | ⟨hm, -⟩
    · rw [e]; exact ⟨ha, fun _ h => h, fun x hx => by simp [App.push] at hx; rcases hx with hx | rfl <;> simp_all⟩
    · rw [e]; exact ⟨ha, fun _ h => h, fun x hx => by simp [App.push] at hx; rcases hx with hx | rfl <;> simp_all⟩
    · rw [e]; exact ⟨ha, fun _ h => h, fun x hx => .inl hx⟩
    · rw [e]
      cases ok
      · exact ⟨ha, fun _ h => h, fun x hx => .inl hx⟩
      · refine ⟨⟨fun _ => by simp [App.push], fun n hx => ?_⟩, fun x _ _ => by simp [App.push], fun x _ => .inr (fun _ => by simp [App.push])⟩
        simp only [if_true, App.push] at hx
        rw [hn] at hx
        cases hx
    · rw [e]
      exact ⟨⟨fun _ => hj hc, fun n hx => ha.2 n hx⟩, fun _ h => h, fun x hx => .inl hx⟩
    · rw [e]; exact ⟨ha, fun _ h => h, fun x hx => .inl hx⟩
    · rw [e]; exact ⟨ha, fun _ h => h, fun x hx => .inl hx⟩
    · rw [hk] at hx; cases hx
    · refine ⟨⟨fun hf => ?_, fun n hx => ?_⟩, fun x hx => by rw [hm.finished]; exact hx, fun x hx => ?_⟩
      · rw [hm.finished]
        exact (hm.flag' hf).elim ha.1 (fun ⟨hx, _⟩ => by rw [hk] at hx; cases hx)
      · rw [hm.ended, hn] at hx; cases hx
      · rcases hm.queue with ⟨l, hl, hl1, hl2⟩
        rw [hl] at hx
        rcases List.mem_append.1 hx with hx | hx
        · exact .inl hx
        · exact .inr (fun hxx => by subst hxx; rw [hd] at hl1; cases hl1 hx)
  · exact fun _ _ h => h
  · exact fun a h hn hf => ⟨h.1, fun n hx => by cases hx; exact ⟨rfl, h.1 hf⟩⟩
  · exact fun _ _ _ h => h
  · exact fun _ _ h => h
  · exact ⟨fun h => by simp [init] at h, fun n h => by simp [init] at h⟩
  · exact fun h => by cases h
  · intro g e c _ hc hx
    subst hx
    cases e <;> simp [Ev.post] at hc
    rw [hk] at hc
    cases hc

/-- **C86 (ends only for a cause)** `ipcluster start` without `--daemonize` goes on as long as there is no SIGINT or SIGTERM, the controller does not stop, and the engines do not stop while `early_shutdown` (30 seconds after the start) is on:
later, the engines may stop and come back as they like. -/
theorem start_goes_on (cf : Conf) (hk : cf.kind = .start) (hd : cf.daemonize = false) (h : List Ev) (h1 : .signal ∉ h) (h2 : .controllerStop ∉ h)
    (h3 : ∀ g, g ++ [.enginesStop] <+: h → (run cf g).early = false) : (run cf h).ended = none ∧ (run cf h).begun = 0 := by
  have := (run_ind cf (fun a => a.ended = none ∧ a.begun = 0 ∧ a.flag = false ∧ a.inStop = false ∧ a.ctlAfter = false ∧ (a.enginesAfter = true → a.early = false))
    (fun a x => x ≠ .callStop ∧ x ≠ .stop ∧ x ≠ .loopStop ∧ x ≠ .controllerStop ∧ (x = .enginesStop → a.early = false)) ?_ ?_ ?_ ?_ ?_ ?_ ?_ h ?_).1
  · exact ⟨this.1, this.2.1⟩
  · intro a c hn ha ⟨j1, j2, j3, j4, j5⟩
    rcases callback_cases cf a c with ⟨-, e⟩ | ⟨hc, e⟩ | ⟨hc, hs, e⟩ | ⟨ok, -, hi, e⟩ | ⟨hc, e⟩ | ⟨-, -, e⟩ | ⟨-, e⟩ | ⟨x, y, -, hx, e⟩ | ⟨hm, -, -, -, -, hca, hea⟩
    · rw [e]; exact ⟨ha, fun _ h => h, fun x hx => by simp [App.push] at hx; rcases hx with hx | rfl <;> simp_all⟩
    · exact absurd hc j1
    · exact absurd hc j2
    · rw [ha.2.2.2.1] at hi; cases hi
    · exact absurd hc j3
    · rw [e]
      exact ⟨⟨ha.1, ha.2.1, ha.2.2.1, ha.2.2.2.1, ha.2.2.2.2.1, fun _ => rfl⟩, fun x hx => ⟨hx.1, hx.2.1, hx.2.2.1, hx.2.2.2.1, fun _ => rfl⟩, fun x hx => .inl hx⟩
    · rw [e]; exact ⟨ha, fun _ h => h, fun x hx => .inl hx⟩
    · rw [hk] at hx; cases hx
    · have e1 : (callback cf a c).ctlAfter = false := by
        cases hx : (callback cf a c).ctlAfter with
        | false => rfl
        | true => exact (hca hx).elim (fun hy => by rw [ha.2.2.2.2.1] at hy; cases hy) (fun hy => absurd hy j4)
      have e2 : (callback cf a c).enginesAfter = true → a.early = false := fun hx => (hea hx).elim ha.2.2.2.2.2 j5
      refine ⟨⟨hm.ended.trans hn, hm.begun.trans ha.2.1, ?_, hm.inStop.trans ha.2.2.2.1, e1, fun hx => by rw [hm.early]; exact e2 hx⟩, fun x hx => by rw [hm.early]; exact hx, fun x hx => ?_⟩
      · cases hf : (callback cf a c).flag with
        | false => rfl
        | true => exact (hm.flag' hf).elim (fun hy => by rw [ha.2.2.1] at hy; cases hy) (fun ⟨hx, _⟩ => by rw [hk] at hx; cases hx)
      · rcases hm.queue with ⟨l, hl, hl1, hl2⟩
        rw [hl] at hx
        rcases List.mem_append.1 hx with hx | hx
        · exact .inl hx
        · rcases hl2 x hx with rfl | ⟨-, -, ⟨hy, -⟩ | ⟨hy, hz⟩⟩
          · rw [hd] at hl1; cases hl1 hx
          · rw [e1] at hy; cases hy
          · rw [e2 hy] at hz; cases hz
  · exact fun _ _ h => h
  · exact fun a h hn hf => by rw [h.2.2.1] at hf; cases hf
  · exact fun _ _ _ h => h
  · exact fun _ _ h => h
  · exact ⟨rfl, rfl, rfl, rfl, rfl, fun h => by simp [init] at h⟩
  · simp
  · intro g e c hg hc
    have hm := prefix_mem hg
    cases e <;> simp [Ev.post] at hc <;> subst hc
    · exact absurd hm h1
    · simp
    · simp
    · simp
    · exact ⟨by simp, by simp, by simp, by simp, fun _ => h3 g hg⟩
    · exact absurd hm h2

/-- **C86 (a failed stop)** VIOLATED: "SIGINT or SIGTERM ends `ipcluster start`". If `stop_cluster` fails (an exception: nothing catches it), the process never ends, whatever happens afterwards — further signals are ignored,
no second attempt is made. -/
theorem failed_stop_never_ends_violated (cf : Conf) (hk : cf.kind = .start) (hd : cf.daemonize = false) (h : List Ev) (hs : .stopDone true ∉ h) : (run cf h).ended = none ∧ (run cf h).begun ≤ 1 := by
  refine ⟨?_, (stops_at_most_once cf h).1⟩
  have := (run_ind cf (fun a => a.finished = 0) (fun a x => x ≠ .stopDone true) ?_ ?_ ?_ ?_ ?_ ?_ ?_ h ?_).1
  · cases he : (run cf h).ended with
    | none => rfl
    | some code =>
      have := (start_ends_stopped cf hk hd h code he).2.2
      omega
  · intro a c hn ha hj
    rcases callback_cases cf a c with ⟨-, e⟩ | ⟨-, e⟩ | ⟨-, hs, e⟩ | ⟨ok, hc, hi, e⟩ | ⟨hc, e⟩ | ⟨-, -, e⟩ | ⟨-, e⟩ | ⟨x, y, -, hx, e⟩ | ⟨hm, -⟩
    · rw [e]; exact ⟨ha, fun _ h => h, fun x hx => by simp [App.push] at hx; rcases hx with hx | rfl <;> simp_all⟩
    · rw [e]; exact ⟨ha, fun _ h => h, fun x hx => by simp [App.push] at hx; rcases hx with hx | rfl <;> simp_all⟩
    · rw [e]; exact ⟨ha, fun _ h => h, fun x hx => .inl hx⟩
    · cases ok
      · rw [e]; exact ⟨ha, fun _ h => h, fun x hx => .inl hx⟩
      · exact absurd hc hj
    · rw [e]; exact ⟨ha, fun _ h => h, fun x hx => .inl hx⟩
    · rw [e]; exact ⟨ha, fun _ h => h, fun x hx => .inl hx⟩
    · rw [e]; exact ⟨ha, fun _ h => h, fun x hx => .inl hx⟩
    · rw [hk] at hx; cases hx
    · refine ⟨hm.finished.trans ha, fun _ h => h, fun x hx => ?_⟩
      rcases hm.queue with ⟨l, hl, hl1, hl2⟩
      rw [hl] at hx
      rcases List.mem_append.1 hx with hx | hx
      · exact .inl hx
      · rcases hl2 x hx with rfl | ⟨rfl, -⟩ <;> exact .inr (by simp)
  · exact fun _ _ h => h
  · exact fun _ h _ _ => h
  · exact fun _ _ _ h => h
  · exact fun _ _ h => h
  · rfl
  · simp
  · rintro g e c hg hc rfl
    cases e <;> simp [Ev.post] at hc
    · split at hc <;> cases hc
    · subst hc; exact hs (prefix_mem hg)

/-- **C86 (a failed start)** VIOLATED: "`ipcluster start` ends when the cluster cannot be started". If `start_cluster` fails, or never returns, the process — even with `--daemonize`, which should "launch the cluster and immediately exit" — goes on forever
unless it gets a signal. -/
theorem failed_start_never_ends_violated (cf : Conf) (hk : cf.kind = .start) (h : List Ev) (h1 : .signal ∉ h) (h2 : ∀ x y, .startDone true x y ∉ h) : (run cf h).ended = none ∧ (run cf h).begun = 0 := by
  have := (run_ind cf (fun a => a.ended = none ∧ a.begun = 0 ∧ a.flag = false ∧ a.inStop = false ∧ a.ctlWatch = false ∧ a.watch = .no)
    (fun a x => x ≠ .callStop ∧ x ≠ .stop ∧ x ≠ .loopStop ∧ ∀ p q, x ≠ .startDone true p q) ?_ ?_ ?_ ?_ ?_ ?_ ?_ h ?_).1
  · exact ⟨this.1, this.2.1⟩
  · intro a c hn ha ⟨j1, j2, j3, j4⟩
    cases c with
    | callStop => exact absurd rfl j1
    | stop => exact absurd rfl j2
    | loopStop => exact absurd rfl j3
    | callStart => exact ⟨ha, fun _ h => h, fun x hx => by simp [callback, App.push] at hx; rcases hx with hx | rfl <;> simp_all⟩
    | start => exact ⟨ha, fun _ h => h, fun x hx => .inl hx⟩
    | startDone ok x y =>
      cases ok with
      | true => exact absurd rfl (j4 x y)
      | false =>
        simp only [callback, hk]
        split
        · exact ⟨ha, fun _ h => h, fun x hx => .inl hx⟩
        · exact ⟨ha, fun _ h => h, fun x hx => .inl hx⟩
    | stopDone ok =>
      rw [show callback cf a (.stopDone ok) = a from by simp [callback, ha.2.2.2.1]]
      exact ⟨ha, fun _ h => h, fun x hx => .inl hx⟩
    | timer =>
      simp only [callback]
      split
      · exact ⟨ha, fun _ h => h, fun x hx => .inl hx⟩
      · exact ⟨ha, fun _ h => h, fun x hx => .inl hx⟩
    | enginesStop =>
      simp only [callback, onEnginesStop, ha.2.2.2.2.2]
      split
      · exact ⟨ha, fun _ h => h, fun x hx => .inl hx⟩
      · exact ⟨⟨hn, ha.2.1, ha.2.2.1, ha.2.2.2.1, ha.2.2.2.2.1, rfl⟩, fun _ h => h, fun x hx => .inl hx⟩
    | controllerStop =>
      simp only [callback, ha.2.2.2.2.1, Bool.false_eq_true, if_false]
      split
      · exact ⟨ha, fun _ h => h, fun x hx => .inl hx⟩
      · exact ⟨⟨hn, ha.2.1, ha.2.2.1, ha.2.2.2.1, rfl, ha.2.2.2.2.2⟩, fun _ h => h, fun x hx => .inl hx⟩
    | relay => exact ⟨ha, fun _ h => h, fun x hx => .inl hx⟩
  · exact fun _ _ h => h
  · exact fun a h hn hf => by rw [h.2.2.1] at hf; cases hf
  · exact fun _ _ _ h => h
  · exact fun _ _ h => h
  · exact ⟨rfl, rfl, rfl, rfl, rfl, rfl⟩
  · simp
  · intro g e c hg hc
    have hm := prefix_mem hg
    cases e <;> simp [Ev.post] at hc <;> subst hc
    · exact absurd hm h1
    · exact ⟨by simp, by simp, by simp, fun p q hx => by cases hx; exact h2 _ _ hm⟩
    all_goals simp

/-- **C86 (daemonize)** `ipcluster start --daemonize` never stops the cluster, unless it gets a signal or a component stops before it is gone. -/
theorem daemonize_leaves_running (cf : Conf) (hk : cf.kind = .start) (h : List Ev) (h1 : .signal ∉ h) (h2 : .controllerStop ∉ h) (h3 : .enginesStop ∉ h) : (run cf h).begun = 0 := by
  have := (run_ind cf (fun a => a.begun = 0 ∧ a.ctlAfter = false ∧ a.enginesAfter = false)
    (fun a x => x ≠ .callStop ∧ x ≠ .stop ∧ x ≠ .controllerStop ∧ x ≠ .enginesStop) ?_ ?_ ?_ ?_ ?_ ?_ ?_ h ?_).1
  · exact this.1
  · intro a c hn ha ⟨j1, j2, j4, j5⟩
    rcases callback_cases cf a c with ⟨-, e⟩ | ⟨hc, e⟩ | ⟨hc, hs, e⟩ | ⟨ok, -, hi, e⟩ | ⟨hc, e⟩ | ⟨-, -, e⟩ | ⟨-, e⟩ | ⟨x, y, -, hx, e⟩ | ⟨hm, -, -, -, -, hca, hea⟩
    · rw [e]; exact ⟨ha, fun _ h => h, fun x hx => by simp [App.push] at hx; rcases hx with hx | rfl <;> simp_all⟩
    · exact absurd hc j1
    · exact absurd hc j2
    · rw [e]
      cases ok
      · exact ⟨ha, fun _ h => h, fun x hx => .inl hx⟩
      · exact ⟨ha, fun _ h => h, fun x hx => by simp [App.push] at hx; rcases hx with hx | rfl <;> simp_all⟩
    · rw [e]; exact ⟨ha, fun _ h => h, fun x hx => .inl hx⟩
    · rw [e]; exact ⟨ha, fun _ h => h, fun x hx => .inl hx⟩
    · rw [e]; exact ⟨ha, fun _ h => h, fun x hx => .inl hx⟩
    · rw [hk] at hx; cases hx
    · have e1 : (callback cf a c).ctlAfter = false := by
        cases hx : (callback cf a c).ctlAfter with
        | false => rfl
        | true => exact (hca hx).elim (fun hy => by rw [ha.2.1] at hy; cases hy) (fun hy => absurd hy j4)
      have e2 : (callback cf a c).enginesAfter = false := by
        cases hx : (callback cf a c).enginesAfter with
        | false => rfl
        | true => exact (hea hx).elim (fun hy => by rw [ha.2.2] at hy; cases hy) (fun hy => absurd hy j5)
      refine ⟨⟨hm.begun.trans ha.1, e1, e2⟩, fun _ h => h, fun x hx => ?_⟩
      rcases hm.queue with ⟨l, hl, hl1, hl2⟩
      rw [hl] at hx
      rcases List.mem_append.1 hx with hx | hx
      · exact .inl hx
      · rcases hl2 x hx with rfl | ⟨-, -, ⟨hy, -⟩ | ⟨hy, hz⟩⟩
        · exact .inr (by simp)
        · rw [e1] at hy; cases hy
        · rw [e2] at hy; cases hy
  · exact fun _ _ h => h
  · exact fun a h hn hf => h
  · exact fun _ _ _ h => h
  · exact fun _ _ h => h
  · exact ⟨rfl, rfl, rfl⟩
  · simp
  · intro g e c hg hc
    have hm := prefix_mem hg
    cases e <;> simp [Ev.post] at hc <;> subst hc
    · exact absurd hm h1
    · simp
    · simp
    · simp
    · exact absurd hm h3
    · exact absurd hm h2

end IPP.Ipcluster
