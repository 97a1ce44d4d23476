import Verif.Client.Joblib

/-!
# The joblib backend gives back what it made (C106)
-/
namespace IPP.Client.Joblib

theorem run_append (file : Option Nat) (h h' : List Ev) :
    run file (h ++ h') = h'.foldl step (run file h) := by simp [run, List.foldl_append]

/-- A backend made by the constructor, after any number of `terminate`. -/
def Sound (b : Backend) : Prop :=
  (b.ownsClient = false → b.ownsCluster = false) ∧ (b.ownsClient = false → b.clientOpen = false) ∧
    (b.ownsCluster = false → b.clusterRunning = false) ∧
    (b.ownsCluster = true → b.clusterRunning = b.clientOpen)

theorem terminate_released (b : Backend) (h : Sound b) :
    b.terminate.clientOpen = false ∧ b.terminate.clusterRunning = false ∧
      b.terminate.ownsClient = b.ownsClient ∧ b.terminate.ownsCluster = b.ownsCluster := by
  obtain ⟨a, c, d, e⟩ := b
  simp only [Sound] at h
  cases a <;> cases c <;> simp_all [Backend.terminate]

theorem terminate_sound (b : Backend) (h : Sound b) : Sound b.terminate := by
  obtain ⟨h1, h2, h3, h4⟩ := terminate_released b h
  unfold Sound
  rw [h1, h2, h3, h4]
  exact ⟨h.1, fun _ => rfl, fun _ => rfl, fun _ => rfl⟩

/-- What a constructor adds, and that it changes nothing else but the default cluster. -/
theorem make_cases (given : Bool) (fails : Step → Bool) (s : St) :
    ∃ o, (make given fails s).made = s.made ++ [o] ∧
      (make given fails s).userOpen = s.userOpen ∧ (make given fails s).applied = s.applied ∧
      (o = none ∨ o = some ⟨false, false, false, false⟩ ∨ o = some ⟨true, true, true, true⟩ ∨
        o = some ⟨true, false, true, false⟩) ∧
      (given = true → o = some ⟨false, false, false, false⟩ ∧
        (make given fails s).file = s.file) ∧
      (∀ n, s.file = some n → ∃ m, n ≤ m ∧ (make given fails s).file = some m) ∧
      (s.file = none → (make given fails s).file = none) := by
  unfold make
  split
  · rename_i hg
    exact ⟨_, rfl, rfl, rfl, by simp, fun _ => ⟨rfl, rfl⟩, fun n hn => ⟨n, Nat.le_refl _, hn⟩, id⟩
  · rename_i hg
    split
    · rename_i hf
      split
      · exact ⟨_, rfl, rfl, rfl, by simp, fun e => absurd e hg, by simp [hf], id⟩
      · split
        · exact ⟨_, rfl, rfl, rfl, by simp, fun e => absurd e hg, by simp [hf], id⟩
        · split
          · exact ⟨_, rfl, rfl, rfl, by simp, fun e => absurd e hg, by simp [hf], id⟩
          · exact ⟨_, rfl, rfl, rfl, by simp, fun e => absurd e hg, by simp [hf], id⟩
    · rename_i sets hf
      split
      · exact ⟨_, rfl, rfl, rfl, by simp, fun e => absurd e hg, fun n hn => ⟨n, Nat.le_refl _, hn⟩, by
          simp [hf]⟩
      · have : ∀ n, s.file = some n → ∃ m, n ≤ m ∧ some (if sets = 0 then 1 else sets) = some m := by
          intro n hn
          rw [hf] at hn
          cases hn
          refine ⟨_, ?_, rfl⟩
          split <;> omega
        dsimp only
        split
        · exact ⟨_, rfl, rfl, rfl, by simp, fun e => absurd e hg, this, by simp [hf]⟩
        · exact ⟨_, rfl, rfl, rfl, by simp, fun e => absurd e hg, this, by simp [hf]⟩

def Inv (s : St) : Prop := s.userOpen = true ∧ ∀ (i : Nat) (b : Backend), s.made[i]? = some (some b) → Sound b

theorem inv_step (s : St) (e : Ev) (h : Inv s) : Inv (step s e) := by
  obtain ⟨h1, h2⟩ := h
  cases e with
  | make given fails =>
    obtain ⟨o, m1, m2, _, m4, _⟩ := make_cases given fails s
    refine ⟨by simp only [step]; rw [m2, h1], fun i b hb => ?_⟩
    simp only [step] at hb
    rw [m1, List.getElem?_append] at hb
    split at hb
    · exact h2 i b hb
    · have ho : o = some b := by
        have := List.mem_singleton.1 (List.mem_of_getElem? hb)
        exact this.symm
      rcases m4 with e | e | e | e <;> rw [e] at ho <;> simp at ho <;> subst ho <;> simp [Sound]
  | apply i =>
    simp only [step]
    split
    · exact ⟨h1, h2⟩
    · exact ⟨h1, h2⟩
  | terminate i =>
    refine ⟨h1, fun j b hb => ?_⟩
    simp only [step, List.getElem?_modify] at hb
    split at hb
    · cases hm : s.made[j]? with
      | none => rw [hm] at hb; simp at hb
      | some o =>
        cases o with
        | none => rw [hm] at hb; simp at hb
        | some b' =>
          rw [hm] at hb
          simp at hb
          subst hb
          exact terminate_sound b' (h2 j b' hm)
    · cases hm : s.made[j]? with
      | none => rw [hm] at hb; simp at hb
      | some o => rw [hm] at hb; simp at hb; subst hb; exact h2 j b hm

theorem inv_run (file : Option Nat) (h : List Ev) : Inv (run file h) := by
  have : ∀ (l : List Ev) (s : St), Inv s → Inv (l.foldl step s) := by
    intro l
    induction l with
    | nil => exact fun s hs => hs
    | cons e l ih => exact fun s hs => ih _ (inv_step s e hs)
  exact this h _ ⟨rfl, by simp⟩

/-! ## One backend through a history -/

/-- `i` is backend `b`, up to what `terminate` closes; `done`: it has been terminated. -/
def Is (s : St) (i : Nat) (b : Backend) (done : Bool) : Prop :=
  s.made[i]? = some (some (if done then b.terminate else b))

theorem terminate_twice (b : Backend) : b.terminate.terminate = b.terminate := by
  obtain ⟨a, c, d, e⟩ := b
  cases a <;> cases c <;> rfl

/-- The history terminates backend `i`. -/
def terminates (i : Nat) : List Ev → Bool
  | [] => false
  | .terminate j :: h => i == j || terminates i h
  | _ :: h => terminates i h

theorem is_step (s : St) (i : Nat) (b : Backend) (done : Bool) (e : Ev) (h : Is s i b done) :
    Is (step s e) i b (done || terminates i [e]) := by
  unfold Is at *
  cases e with
  | make given fails =>
    obtain ⟨o, m1, _⟩ := make_cases given fails s
    simp only [step, terminates, Bool.or_false]
    rw [m1, List.getElem?_append_left (List.getElem?_eq_some_iff.1 h).1, h]
  | apply j =>
    simp only [step, terminates, Bool.or_false]
    split <;> exact h
  | terminate j =>
    simp only [step, terminates, Bool.or_false, List.getElem?_modify, h]
    by_cases hj : j = i
    · subst hj
      cases done <;> simp [terminate_twice]
    · have : (i == j) = false := by simpa using fun e : i = j => hj e.symm
      simp [hj, this]

theorem is_run (l : List Ev) (s : St) (i : Nat) (b : Backend) (done : Bool) (h : Is s i b done) :
    Is (l.foldl step s) i b (done || terminates i l) := by
  induction l generalizing s done with
  | nil => simpa [terminates] using h
  | cons e l ih =>
    have := ih _ _ (is_step s i b done e h)
    rw [List.foldl_cons]
    have e2 : (done || terminates i (e :: l)) = ((done || terminates i [e]) || terminates i l) := by
      cases e <;> simp [terminates, Bool.or_assoc]
    rw [e2]
    exact this

/-! ## What is promised -/

/-- **What a backend opened and started is closed and stopped by `terminate`**, and stays so
whatever happens later. -/
theorem terminate_releases (file : Option Nat) (h h' : List Ev) (i : Nat) (b : Backend)
    (hb : (run file h).made[i]? = some (some b)) (ht : terminates i h' = true) :
    ∃ b', (run file (h ++ h')).made[i]? = some (some b') ∧ b'.clientOpen = false ∧
      b'.clusterRunning = false := by
  have := is_run h' (run file h) i b false hb
  rw [← run_append] at this
  unfold Is at this
  rw [ht] at this
  simp only [Bool.false_or, if_true] at this
  have hs := terminate_released b ((inv_run file h).2 i b hb)
  exact ⟨_, this, hs.1, hs.2.1⟩

/-- **What others opened and started stays**: the clients of given views are never closed, and the
default cluster, if it was running, keeps its engines. -/
theorem others_untouched (file : Option Nat) (h : List Ev) :
    (run file h).userOpen = true ∧
    (file = none → (run file h).file = none) ∧
    ∀ n, file = some n → ∃ m, n ≤ m ∧ (run file h).file = some m := by
  refine ⟨(inv_run file h).1, ?_⟩
  have key : ∀ (l : List Ev) (s : St), (s.file = none → (l.foldl step s).file = none) ∧
      ∀ n, s.file = some n → ∃ m, n ≤ m ∧ (l.foldl step s).file = some m := by
    intro l
    induction l with
    | nil => exact fun s => ⟨id, fun n hn => ⟨n, Nat.le_refl _, hn⟩⟩
    | cons e l ih =>
      intro s
      have hstep : (s.file = none → (step s e).file = none) ∧
          ∀ n, s.file = some n → ∃ m, n ≤ m ∧ (step s e).file = some m := by
        cases e with
        | make given fails =>
          obtain ⟨o, _, _, _, _, _, m6, m7⟩ := make_cases given fails s
          exact ⟨m7, m6⟩
        | apply i =>
          simp only [step]
          split <;> exact ⟨id, fun n hn => ⟨n, Nat.le_refl _, hn⟩⟩
        | terminate i => exact ⟨id, fun n hn => ⟨n, Nat.le_refl _, hn⟩⟩
      refine ⟨fun hn => (ih _).1 (hstep.1 hn), fun n hn => ?_⟩
      obtain ⟨m, h1, h2⟩ := hstep.2 n hn
      obtain ⟨m', h3, h4⟩ := (ih _).2 m h2
      exact ⟨m', by omega, h4⟩
  exact key h { file := file }

/-- **A backend on a given view takes work at any time**, also after `terminate`: any number of
`Parallel` calls use it one after the other. -/
theorem given_view_always (file : Option Nat) (h : List Ev) (h' : List Ev) (fails : Step → Bool) :
    let i := (run file h).made.length
    (run file (h ++ .make true fails :: h' ++ [.apply i])).applied =
      (run file (h ++ .make true fails :: h')).applied ++ [(i, true)] := by
  intro i
  have h0 : Is (step (run file h) (.make true fails)) i ⟨false, false, false, false⟩ false := by
    unfold Is
    obtain ⟨o, m1, _, _, _, m5, _⟩ := make_cases true fails (run file h)
    simp only [step]
    rw [m1, (m5 rfl).1]
    simp [i]
  have h1 := is_run h' _ i _ false h0
  have e : h'.foldl step (step (run file h) (.make true fails)) =
      run file (h ++ .make true fails :: h') := by rw [run_append]; rfl
  rw [e] at h1
  rw [run_append file (h ++ .make true fails :: h') [.apply i]]
  have h2 : (run file (h ++ .make true fails :: h')).made[i]? =
      some (some ⟨false, false, false, false⟩) := by
    unfold Is at h1
    rw [h1]
    cases (false || terminates i h') <;> rfl
  simp only [List.foldl_cons, List.foldl_nil, step, h2, accepts]
  have hu := (inv_run file (h ++ .make true fails :: h')).1
  simp [hu]

/-- **A backend that made its own client takes work until it is terminated.** -/
theorem own_view_until_partial (file : Option Nat) (h h' : List Ev) (i : Nat) (b : Backend)
    (hb : (run file h).made[i]? = some (some b)) (ho : b.clientOpen = true)
    (ht : terminates i h' = false) :
    (run file (h ++ h' ++ [.apply i])).applied =
      (run file (h ++ h')).applied ++ [(i, true)] := by
  have := is_run h' (run file h) i b false hb
  rw [← run_append] at this
  unfold Is at this
  rw [ht] at this
  simp only [Bool.or_false] at this
  have hs := (inv_run file h).2 i b hb
  have hown : b.ownsClient = true := by
    cases hc : b.ownsClient with
    | true => rfl
    | false => exact absurd ho (by simp [hs.2.1 hc])
  rw [run_append file (h ++ h') [.apply i]]
  simp only [Bool.false_eq_true, if_false] at this
  simp [step, this, accepts, hown, ho]

/-! ## Violations -/

/-- **After its first `Parallel` call the default backend takes no more work**: joblib has
terminated it, and nothing opens its client again. -/
theorem second_parallel_fails_violated (file : Option Nat) (h h' : List Ev) (i : Nat) (b : Backend)
    (hb : (run file h).made[i]? = some (some b)) (ho : b.ownsClient = true)
    (ht : terminates i h' = true) :
    (run file (h ++ h' ++ [.apply i])).applied =
      (run file (h ++ h')).applied ++ [(i, false)] := by
  have := is_run h' (run file h) i b false hb
  rw [← run_append] at this
  unfold Is at this
  rw [ht] at this
  simp only [Bool.false_or, if_true] at this
  have hs := terminate_released b ((inv_run file h).2 i b hb)
  rw [run_append file (h ++ h') [.apply i]]
  simp [step, this, accepts, hs.1, hs.2.2.1, ho]

/-- **A constructor that raises after it started a cluster leaves it running**, and its client
open: nobody holds the backend, so `terminate` is never called. (`wait` fails.) -/
theorem raising_leaks_violated :
    let s := run none [.make false (fun x => x == .wait)]
    s.made = [none] ∧ s.leakedClusters = 1 ∧ s.leakedClients = 1 ∧
      ∀ h, (run none (.make false (fun x => x == .wait) :: h)).leakedClusters ≥ 1 ∧
        (run none (.make false (fun x => x == .wait) :: h)).leakedClients ≥ 1 := by
  refine ⟨rfl, rfl, rfl, ?_⟩
  have key : ∀ (l : List Ev) (s : St), s.leakedClusters ≤ (l.foldl step s).leakedClusters ∧
      s.leakedClients ≤ (l.foldl step s).leakedClients := by
    intro l
    induction l with
    | nil => exact fun s => ⟨Nat.le_refl _, Nat.le_refl _⟩
    | cons e l ih =>
      intro s
      have h1 := ih (step s e)
      have h2 : s.leakedClusters ≤ (step s e).leakedClusters ∧
          s.leakedClients ≤ (step s e).leakedClients := by
        cases e with
        | make given fails =>
          simp only [step, make]
          repeat' split
          all_goals simp
        | apply i => simp only [step]; split <;> exact ⟨Nat.le_refl _, Nat.le_refl _⟩
        | terminate i => exact ⟨Nat.le_refl _, Nat.le_refl _⟩
      exact ⟨Nat.le_trans h2.1 h1.1, Nat.le_trans h2.2 h1.2⟩
  intro h
  exact key h (step { file := none } (.make false (fun x => x == .wait)))

/-- **Engines that the backend started in a running cluster without engines stay** after
`terminate`. -/
theorem engines_stay_violated :
    (run (some 0) [.make false (fun _ => false), .terminate 0]).file = some 1 := rfl

example : (run none [.make false (fun _ => false), .apply 0, .terminate 0, .apply 0]).applied =
    [(0, true), (0, false)] := rfl

example : (run none [.make true (fun _ => false), .apply 0, .terminate 0, .apply 0]).applied =
    [(0, true), (0, true)] := rfl

example : (run none [.make false (fun _ => false), .terminate 0]).made =
    [some ⟨true, true, false, false⟩] := rfl

end IPP.Client.Joblib
