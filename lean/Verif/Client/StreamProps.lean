import Verif.Client.Stream
/-!
# C76: output that is streamed
-/
namespace IPP.Stream
open IPP.Output (Text Md Pub)
open IPP.Display

/-! ## One child's view of the two threads -/

inductive Phase where
  | a | b1 | b2 | b3 (i : Nat) | b4 | c | d
deriving DecidableEq, Repr

/-- what is left to do for the child -/
def Phase.list (k : Nat) : Phase → List Instr
  | .a => [.register k, .text k false, .text k true, .outputs k 0, .result k, .remove k]
  | .b1 => [.text k false, .text k true, .outputs k 0, .result k, .remove k]
  | .b2 => [.text k true, .outputs k 0, .result k, .remove k]
  | .b3 i => [.outputs k i, .result k, .remove k]
  | .b4 => [.result k, .remove k]
  | .c => [.remove k]
  | .d => []

def Phase.entering : Phase → Bool
  | .b1 | .b2 | .b3 _ | .b4 => true
  | _ => false

def Phase.registered : Phase → Bool
  | .a | .d => false
  | _ => true

def about (k : Nat) : Instr → Bool
  | .register j => j = k
  | .text j _ => j = k
  | .outputs j _ => j = k
  | .result j => j = k
  | .body => false
  | .remove j => j = k

structure View where
  ph : Phase
  md : Md
  fl : Option Pub
  log : List Pub
  /-- the messages received -/
  recv : List Pub

/-- `C`: the messages that may arrive -/
inductive VStep (C : Pub → Prop) : View → View → Prop
  | refl (v) : VStep C v v
  | store (v : View) (p : Pub) (h : v.fl = none) (hc : C p) : VStep C v { v with md := v.md.add p, fl := some p, recv := v.recv ++ [p] }
  | call (v : View) (p : Pub) (h : v.fl = some p) : VStep C v { v with fl := none, log := if v.ph.registered then v.log ++ [p] else v.log }
  | register (v : View) (h : v.ph = .a) : VStep C v { v with ph := .b1 }
  | stdout (v : View) (h : v.ph = .b1) : VStep C v { v with ph := .b2, log := if textOf v.md false = [] then v.log else v.log ++ [.stream false (textOf v.md false)] }
  | stderr (v : View) (h : v.ph = .b2) : VStep C v { v with ph := .b3 0, log := if textOf v.md true = [] then v.log else v.log ++ [.stream true (textOf v.md true)] }
  | output (v : View) (i d : Nat) (h : v.ph = .b3 i) (hd : v.md.outputs[i]? = some d) : VStep C v { v with ph := .b3 (i + 1), log := v.log ++ [.display d] }
  | outputsEnd (v : View) (i : Nat) (h : v.ph = .b3 i) (hd : v.md.outputs[i]? = none) : VStep C v { v with ph := .b4 }
  | result (v : View) (h : v.ph = .b4) : VStep C v { v with ph := .c, log := match v.md.result with | none => v.log | some r => v.log ++ [.result r] }
  | remove (v : View) (h : v.ph = .c) : VStep C v { v with ph := .d }

inductive VReach (C : Pub → Prop) : View → Bool → Prop
  | init : VReach C ⟨.a, {}, none, [], []⟩ true
  | step {v v' : View} {q : Bool} : VReach C v q → VStep C v v' → VReach C v' (q && !(v'.ph.entering && v'.fl.isSome))

def flightOf (k : Nat) (s : St) : Option Pub := match s.flight with | some (j, p) => if j = k then some p else none | none => none

structure IsView (k : Nat) (s : St) (v : View) : Prop where
  pc : s.pc.filter (about k) = v.ph.list k
  reg : s.reg k = v.ph.registered
  md : s.md k = v.md
  fl : flightOf k s = v.fl
  log : shown k s = v.log

theorem callback_view (eid : Nat → Nat) (s : St) (k j : Nat) (b : Bool) (p : Pub) :
    shown k (callback eid s j b p) = (if j = k then shown k s ++ [p] else shown k s) ∧ (callback eid s j b p).pc = s.pc ∧ (callback eid s j b p).reg = s.reg ∧ (callback eid s j b p).md = s.md ∧
    (callback eid s j b p).flight = s.flight := by
  refine ⟨?_, rfl, rfl, rfl, rfl⟩
  unfold shown callback
  simp only [List.filterMap_append, List.filterMap_cons, List.filterMap_nil]
  split <;> simp_all

theorem IsView.callback_other {eid : Nat → Nat} {s : St} {k j : Nat} {b : Bool} {p : Pub} {v : View} (h : IsView k s v) (hj : j ≠ k) : IsView k (callback eid s j b p) v := by
  obtain ⟨h1, h2, h3, h4, h5⟩ := callback_view eid s k j b p
  rw [if_neg hj] at h1
  exact ⟨h2 ▸ h.pc, h3 ▸ h.reg, h4 ▸ h.md, by unfold flightOf; rw [h5]; exact h.fl, h1 ▸ h.log⟩

theorem IsView.callback_same {eid : Nat → Nat} {s : St} {k : Nat} {b : Bool} {p : Pub} {v : View} (h : IsView k s v) : IsView k (callback eid s k b p) { v with log := v.log ++ [p] } := by
  obtain ⟨h1, h2, h3, h4, h5⟩ := callback_view eid s k k b p
  rw [if_pos rfl] at h1
  exact ⟨h2 ▸ h.pc, h3 ▸ h.reg, h4 ▸ h.md, by unfold flightOf; rw [h5]; exact h.fl, by rw [h1, h.log]⟩

/-- dropping an instruction that is about another child -/
theorem IsView.skip {s : St} {k : Nat} {v : View} {i : Instr} {pc : List Instr} (h : IsView k s v) (hpc : s.pc = i :: pc) (ha : about k i = false) : IsView k { s with pc := pc } v := by
  have := h.pc
  rw [hpc, List.filter_cons_of_neg (by simp [ha])] at this
  exact ⟨this, h.reg, h.md, h.fl, h.log⟩

theorem main_view {C : Pub → Prop} (eid : Nat → Nat) (k : Nat) (s : St) (v : View) (h : IsView k s v) : ∃ v', VStep C v v' ∧ v'.recv = v.recv ∧ IsView k (mainStep eid s) v' := by
  cases hpc : s.pc with
  | nil => exact ⟨v, .refl v, rfl, by unfold mainStep; rw [hpc]; exact h⟩
  | cons i pc =>
    by_cases ha : about k i = true
    · -- about this child
      have hl := h.pc
      rw [hpc, List.filter_cons_of_pos (by exact ha)] at hl
      have hpcs : ∀ ph : Phase, pc.filter (about k) = ph.list k → ∀ r : Bool, (r = ph.registered) → IsView k { s with pc := pc, reg := fun j => if j = k then r else s.reg j } { v with ph := ph } := by
        intro ph hp r hr
        exact ⟨hp, by simp [hr], h.md, h.fl, h.log⟩
      have hpcs' : ∀ ph : Phase, pc.filter (about k) = ph.list k → v.ph.registered = ph.registered → IsView k { s with pc := pc } { v with ph := ph } := by
        intro ph hp hr
        exact ⟨hp, by rw [← hr]; exact h.reg, h.md, h.fl, h.log⟩
      cases hph : v.ph with
      | d => rw [hph] at hl; simp [Phase.list] at hl
      | a =>
        rw [hph] at hl
        simp only [Phase.list, List.cons.injEq] at hl
        obtain ⟨rfl, hl⟩ := hl
        exact ⟨_, .register v hph, rfl, by unfold mainStep; rw [hpc]; exact hpcs .b1 hl true rfl⟩
      | c =>
        rw [hph] at hl
        simp only [Phase.list, List.cons.injEq] at hl
        obtain ⟨rfl, hl⟩ := hl
        exact ⟨_, .remove v hph, rfl, by unfold mainStep; rw [hpc]; exact hpcs .d hl false rfl⟩
      | b1 =>
        rw [hph] at hl
        simp only [Phase.list, List.cons.injEq] at hl
        obtain ⟨rfl, hl⟩ := hl
        refine ⟨_, .stdout v hph, rfl, ?_⟩
        have h1 := hpcs' .b2 hl (by rw [hph]; rfl)
        unfold mainStep
        rw [hpc]
        dsimp only
        rw [h.md]
        split
        · exact h1
        · exact h1.callback_same
      | b2 =>
        rw [hph] at hl
        simp only [Phase.list, List.cons.injEq] at hl
        obtain ⟨rfl, hl⟩ := hl
        refine ⟨_, .stderr v hph, rfl, ?_⟩
        have h1 := hpcs' (.b3 0) hl (by rw [hph]; rfl)
        unfold mainStep
        rw [hpc]
        dsimp only
        rw [h.md]
        split
        · exact h1
        · exact h1.callback_same
      | b3 i =>
        rw [hph] at hl
        simp only [Phase.list, List.cons.injEq] at hl
        obtain ⟨rfl, hl⟩ := hl
        cases ho : (s.md k).outputs[i]? with
        | none =>
          refine ⟨_, .outputsEnd v i hph (by rw [← h.md]; exact ho), rfl, ?_⟩
          unfold mainStep
          rw [hpc]
          dsimp only
          rw [ho]
          exact hpcs' .b4 hl (by rw [hph]; rfl)
        | some d =>
          refine ⟨_, .output v i d hph (by rw [← h.md]; exact ho), rfl, ?_⟩
          unfold mainStep
          rw [hpc]
          dsimp only
          rw [ho]
          dsimp only
          have h1 : IsView k { s with pc := .outputs k (i + 1) :: pc } { v with ph := .b3 (i + 1) } :=
            ⟨by rw [List.filter_cons_of_pos (by simp [about]), hl]; rfl, by rw [h.reg, hph]; rfl, h.md, h.fl, h.log⟩
          exact h1.callback_same
      | b4 =>
        rw [hph] at hl
        simp only [Phase.list, List.cons.injEq] at hl
        obtain ⟨rfl, hl⟩ := hl
        refine ⟨_, .result v hph, rfl, ?_⟩
        have h1 := hpcs' .c hl (by rw [hph]; rfl)
        unfold mainStep
        rw [hpc]
        dsimp only
        rw [h.md]
        cases v.md.result with
        | none => exact h1
        | some r => exact h1.callback_same
    · -- about another child
      have ha : about k i = false := by simpa using ha
      refine ⟨v, .refl v, rfl, ?_⟩
      have h1 := h.skip hpc ha
      unfold mainStep
      rw [hpc]
      cases i with
      | register j =>
        have hj : j ≠ k := by simpa [about] using ha
        exact ⟨h1.pc, by simp [Ne.symm hj]; exact h1.reg, h1.md, h1.fl, h1.log⟩
      | remove j =>
        have hj : j ≠ k := by simpa [about] using ha
        exact ⟨h1.pc, by simp [Ne.symm hj]; exact h1.reg, h1.md, h1.fl, h1.log⟩
      | body => exact h1
      | text j e =>
        have hj : j ≠ k := by simpa [about] using ha
        dsimp only
        split
        · exact h1
        · exact h1.callback_other hj
      | outputs j i =>
        have hj : j ≠ k := by simpa [about] using ha
        dsimp only
        split
        · exact h1
        · refine IsView.callback_other ?_ hj
          exact ⟨by rw [List.filter_cons_of_neg (by simp [about, hj])]; exact h1.pc, h1.reg, h1.md, h1.fl, h1.log⟩
      | result j =>
        have hj : j ≠ k := by simpa [about] using ha
        dsimp only
        split
        · exact h1
        · exact h1.callback_other hj

/-- the message for child `k` that is received in a step -/
def newly (k : Nat) (s : St) : Ev → List Pub
  | .store j p => if s.flight = none ∧ j = k then [p] else []
  | _ => []

theorem step_view {C : Pub → Prop} (eid : Nat → Nat) (k : Nat) (s : St) (v : View) (ev : Ev) (hc : ∀ j p, ev = .store j p → C p) (h : IsView k s v) : ∃ v', VStep C v v' ∧ v'.recv = v.recv ++ newly k s ev ∧ IsView k (step eid s ev) v' := by
  cases ev with
  | main => simpa [newly, step] using main_view (C := C) eid k s v h
  | store j p =>
    unfold step
    cases hf : s.flight with
    | some x => exact ⟨v, .refl v, by simp [newly, hf], h⟩
    | none =>
      have hfl := h.fl
      unfold flightOf at hfl
      rw [hf] at hfl
      by_cases hj : j = k
      · subst hj
        exact ⟨_, .store v p hfl.symm (hc _ p rfl), by simp [newly, hf], h.pc, h.reg, by simp [h.md], by simp [flightOf], h.log⟩
      · exact ⟨v, .refl v, by simp [newly, hf, hj], h.pc, h.reg, by simp [Ne.symm hj]; exact h.md, by simp [flightOf, hj, ← hfl], h.log⟩
  | call =>
    unfold step
    cases hf : s.flight with
    | none => exact ⟨v, .refl v, by simp [newly], h⟩
    | some x =>
      obtain ⟨j, p⟩ := x
      have hfl := h.fl
      unfold flightOf at hfl
      rw [hf] at hfl
      dsimp only at hfl ⊢
      by_cases hj : j = k
      · subst hj
        rw [if_pos rfl] at hfl
        refine ⟨_, .call v p hfl.symm, by simp [newly], ?_⟩
        have h1 : IsView j { s with flight := none } { v with fl := none } := ⟨h.pc, h.reg, h.md, rfl, h.log⟩
        rw [h.reg]
        split
        · exact h1.callback_same
        · exact h1
      · rw [if_neg hj] at hfl
        have h1 : IsView k { s with flight := none } v := ⟨h.pc, h.reg, h.md, by rw [← hfl]; rfl, h.log⟩
        refine ⟨v, .refl v, by simp [newly], ?_⟩
        split
        · exact h1.callback_other hj
        · exact h1

theorem run_snoc (eid : Nat → Nat) (prog : List Instr) (evs : List Ev) (ev : Ev) : run eid prog (evs ++ [ev]) = step eid (run eid prog evs) ev := by
  unfold run; rw [List.foldl_append]; rfl

theorem entering_iff {k : Nat} {s : St} {v : View} (h : IsView k s v) : Entering k s ↔ v.ph.entering = true := by
  have hm : ∀ i, about k i = true → (i ∈ s.pc ↔ i ∈ v.ph.list k) := by
    intro i hi
    rw [← h.pc, List.mem_filter]
    simp [hi]
  constructor
  · rintro ⟨hr, i, hi, h1⟩
    rw [h.reg] at hr
    have ha : about k i = true := by rcases h1 with ⟨e, rfl⟩ | ⟨j, rfl⟩ | rfl <;> simp [about]
    rw [hm i ha] at hi
    cases hp : v.ph with
    | a => rw [hp] at hr; cases hr
    | d => rw [hp] at hr; cases hr
    | c => rw [hp] at hi; simp [Phase.list] at hi; rcases h1 with ⟨e, rfl⟩ | ⟨j, rfl⟩ | rfl <;> simp at hi
    | _ => rfl
  · intro he
    refine ⟨by rw [h.reg]; cases hp : v.ph <;> simp [hp, Phase.entering] at he <;> rfl, .result k, ?_, .inr (.inr rfl)⟩
    rw [hm _ (by simp [about])]
    cases hp : v.ph <;> simp [hp, Phase.entering] at he <;> simp [Phase.list]

theorem program_view (ks : List Nat) (k : Nat) (hn : ks.Nodup) (hk : k ∈ ks) : (ks.flatMap enter ++ [Instr.body] ++ ks.map Instr.remove).filter (about k) = Phase.a.list k := by
  have h1 : ∀ ks : List Nat, ks.Nodup → (ks.flatMap enter).filter (about k) = if k ∈ ks then enter k else [] := by
    intro ks
    induction ks with
    | nil => intro _; rfl
    | cons j ks ih =>
      intro hn
      rw [List.nodup_cons] at hn
      rw [List.flatMap_cons, List.filter_append, ih hn.2]
      by_cases hj : j = k
      · subst hj; simp [hn.1, enter, about]
      · have : ¬ k = j := fun h => hj h.symm
        simp [hj, this, enter, about]
  have h2 : ∀ ks : List Nat, ks.Nodup → (ks.map Instr.remove).filter (about k) = if k ∈ ks then [.remove k] else [] := by
    intro ks
    induction ks with
    | nil => intro _; rfl
    | cons j ks ih =>
      intro hn
      rw [List.nodup_cons] at hn
      rw [List.map_cons, List.filter_cons, ih hn.2]
      by_cases hj : j = k
      · subst hj; simp [hn.1, about]
      · have : ¬ k = j := fun h => hj h.symm
        simp [hj, this, about]
  rw [List.filter_append, List.filter_append, h1 ks hn, h2 ks hn, if_pos hk, if_pos hk]
  rfl

theorem program_pc {targets : Option (List Nat)} {n : Nat} {prog : List Instr} (hp : program targets n = some prog) :
    ∃ ts, targets = some ts ∧ ∀ k, k < ts.length → k < n → prog.filter (about k) = Phase.a.list k := by
  unfold program at hp
  cases targets with
  | none => cases hp
  | some ts =>
    simp only [Option.map_some, Option.some.injEq] at hp
    refine ⟨ts, rfl, fun k h1 h2 => ?_⟩
    rw [← hp]
    exact program_view _ k List.nodup_range (by simp; omega)

theorem mainStep_frame (eid : Nat → Nat) (s : St) : (mainStep eid s).md = s.md ∧ (mainStep eid s).flight = s.flight := by
  unfold mainStep
  split
  · exact ⟨rfl, rfl⟩
  · exact ⟨rfl, rfl⟩
  · dsimp only; split <;> exact ⟨rfl, rfl⟩
  · split <;> exact ⟨rfl, rfl⟩
  · dsimp only; split <;> exact ⟨rfl, rfl⟩
  · exact ⟨rfl, rfl⟩
  · exact ⟨rfl, rfl⟩

theorem received_snoc (eid : Nat → Nat) (k : Nat) (evs : List Ev) (ev : Ev) : ∀ s : St, received k s.flight.isSome (evs ++ [ev]) = received k s.flight.isSome evs ++ newly k (evs.foldl (step eid) s) ev := by
  induction evs with
  | nil =>
    intro s
    cases ev with
    | store j p => cases hf : s.flight <;> by_cases hj : j = k <;> simp [received, newly, hf, hj]
    | _ => simp [received, newly]
  | cons e evs ih =>
    intro s
    have := ih (step eid s e)
    rw [List.foldl_cons, List.cons_append]
    cases e with
    | main =>
      rw [show (step eid s .main).flight = s.flight from (mainStep_frame eid s).2] at this
      simpa [received] using this
    | call =>
      have h1 : (step eid s .call).flight = none := by
        simp only [step]
        cases hf : s.flight with
        | none => exact hf
        | some x => dsimp only; split <;> rfl
      rw [h1] at this
      simpa [received] using this
    | store j p =>
      cases hf : s.flight with
      | some x =>
        have h1 : step eid s (.store j p) = s := by simp [step, hf]
        rw [h1, hf] at this
        rw [h1]
        simpa [received] using this
      | none =>
        have h1 : (step eid s (.store j p)).flight.isSome = true := by simp [step, hf]
        rw [h1] at this
        by_cases hj : j = k <;> simp [received, hj, this]

theorem run_view (eid : Nat → Nat) (prog : List Instr) (k : Nat) (hp : prog.filter (about k) = Phase.a.list k) (C : Pub → Prop) (evs : List Ev) (hc : ∀ j p, Ev.store j p ∈ evs → C p) :
    ∃ v q, VReach C v q ∧ IsView k (run eid prog evs) v ∧ (Quiet eid prog k evs → q = true) ∧ v.recv = received k false evs := by
  have : ∀ r : List Ev, (∀ j p, Ev.store j p ∈ r → C p) → ∃ v q, VReach C v q ∧ IsView k (run eid prog r.reverse) v ∧ (Quiet eid prog k r.reverse → q = true) ∧ v.recv = received k false r.reverse := by
    intro r
    induction r with
    | nil => intro _; exact ⟨_, true, .init, ⟨hp, rfl, rfl, rfl, rfl⟩, fun _ => rfl, rfl⟩
    | cons ev r ih =>
      intro hc
      obtain ⟨v, q, hv, hi, hq, hrec⟩ := ih fun j p h => hc j p (List.mem_cons_of_mem _ h)
      obtain ⟨v', hs, hrec', hi'⟩ := step_view (C := C) eid k _ v ev (fun j p h => hc j p (by simp [h])) hi
      rw [List.reverse_cons]
      refine ⟨v', _, .step hv hs, by rw [run_snoc]; exact hi', fun hquiet => ?_, by rw [hrec', hrec]; exact (received_snoc eid k r.reverse ev { pc := prog }).symm⟩
      have h1 : q = true := hq fun p q' he h => hquiet p (q' ++ [ev]) (by rw [he]; simp) h
      rw [h1]
      cases he : v'.ph.entering with
      | false => simp
      | true =>
        cases hf : v'.fl with
        | none => simp
        | some p =>
          exfalso
          have h2 := hquiet (r.reverse ++ [ev]) [] (by simp) (by rw [run_snoc]; exact (entering_iff hi').2 he) p
          rw [run_snoc] at h2
          have h3 := hi'.fl
          rw [hf] at h3
          unfold flightOf at h3
          split at h3
          · next j p' hfl =>
            split at h3
            · next hj => subst hj; cases h3; exact h2 hfl
            · cases h3
          · cases h3
  have := this evs.reverse fun j p h => hc j p (by simpa using h)
  rwa [List.reverse_reverse] at this

/-! ## Text -/

def flText (err : Bool) : Option Pub → Text
  | some (.stream e t) => if e = err then t else []
  | _ => []

def NoCr (p : Pub) : Prop := ∀ e t, p = .stream e t → '\r' ∉ t

theorem streamText_append (err : Bool) (a b : List Pub) : streamText err (a ++ b) = streamText err a ++ streamText err b := by
  induction a with
  | nil => rfl
  | cons p a ih =>
    cases p with
    | stream e t => by_cases h : e = err <;> simp [streamText, h, ih]
    | _ => simp [streamText, ih]

theorem streamText_one (err : Bool) (p : Pub) : streamText err [p] = flText err (some p) := by
  cases p <;> simp [streamText, flText]

theorem textOf_add (md : Md) (err : Bool) (p : Pub) (h : NoCr p) : textOf (md.add p) err = textOf md err ++ flText err (some p) := by
  cases p with
  | stream e t =>
    have := h e t rfl
    cases e <;> cases err <;> simp [Md.add, textOf, flText, Output.addText, this]
  | _ => simp [Md.add, textOf, flText]

/-- the text captured so far has yet to be shown -/
def uncaptured (err : Bool) : Phase → Bool
  | .b1 => true
  | .b2 => err
  | _ => false

def SInv (err : Bool) (v : View) (q : Bool) : Prop :=
  (v.ph = .a → streamText err v.log = [] ∧ ∃ Z, textOf v.md err = Z ++ flText err v.fl) ∧
  (uncaptured err v.ph = true → ∃ Z D, textOf v.md err = Z ++ D ++ flText err v.fl ∧ streamText err v.log = D ∧ (q = true → D = [] ∧ v.fl = none)) ∧
  (uncaptured err v.ph = false → v.ph.registered = true → ∃ Z D f X Y, textOf v.md err = Z ++ D ++ f ++ Y ∧ streamText err v.log = D ++ Z ++ D ++ f ++ X ∧ X ++ flText err v.fl = f ++ Y ∧
    (q = true → D = [] ∧ f = []))

theorem sinv {err : Bool} {v : View} {q : Bool} (h : VReach NoCr v q) : SInv err v q := by
  induction h with
  | init => exact ⟨fun _ => ⟨rfl, [], by cases err <;> rfl⟩, fun h => (by cases h), fun _ h => (by cases h)⟩
  | @step v v' q hv hs ih =>
    obtain ⟨i1, i2, i3⟩ := ih
    cases hs with
    | refl =>
      refine ⟨i1, fun h => ?_, fun h h' => ?_⟩
      · obtain ⟨Z, D, h1, h2, h3⟩ := i2 h
        refine ⟨Z, D, h1, h2, fun hq => ?_⟩
        simp only [Bool.and_eq_true] at hq
        exact h3 hq.1
      · obtain ⟨Z, D, f, X, Y, h1, h2, h3, h4⟩ := i3 h h'
        refine ⟨Z, D, f, X, Y, h1, h2, h3, fun hq => ?_⟩
        simp only [Bool.and_eq_true] at hq
        exact h4 hq.1
    | store p hf hc =>
      have ht := textOf_add v.md err p hc
      rw [hf] at i1 i2 i3
      refine ⟨fun h => ⟨(i1 h).1, textOf v.md err, ht⟩, fun h => ?_, fun h h' => ?_⟩
      · obtain ⟨Z, D, h1, h2, h3⟩ := i2 h
        refine ⟨Z, D, by rw [ht, h1]; simp [flText], h2, fun hq => ?_⟩
        exfalso
        have : v.ph.entering = true := by revert h; cases v.ph <;> simp [uncaptured, Phase.entering]
        simp [this] at hq
      · obtain ⟨Z, D, f, X, Y, h1, h2, h3, h4⟩ := i3 h h'
        refine ⟨Z, D, f, X, Y ++ flText err (some p), by rw [ht, h1]; simp, h2, ?_, fun hq => ?_⟩
        · simp only [flText, List.append_nil] at h3
          rw [h3]; simp
        · simp only [Bool.and_eq_true] at hq
          exact h4 hq.1
    | call p hf =>
      rw [hf] at i1 i2 i3
      refine ⟨fun h => ?_, fun h => ?_, fun h h' => ?_⟩
      · obtain ⟨h1, Z, h2⟩ := i1 h
        have h : v.ph = .a := h
        dsimp only
        rw [h]
        exact ⟨h1, _, (List.append_nil _).symm⟩
      · obtain ⟨Z, D, h1, h2, h3⟩ := i2 h
        have hr : v.ph.registered = true := by revert h; cases v.ph <;> simp [uncaptured, Phase.registered]
        dsimp only
        rw [if_pos hr]
        refine ⟨Z, D ++ flText err (some p), by rw [h1]; simp [flText], by rw [streamText_append, streamText_one, h2], fun hq => ?_⟩
        simp only [Bool.and_eq_true] at hq
        have := (h3 hq.1).2
        cases this
      · obtain ⟨Z, D, f, X, Y, h1, h2, h3, h4⟩ := i3 h h'
        dsimp only at h'
        dsimp only
        rw [if_pos h']
        refine ⟨Z, D, f, X ++ flText err (some p), Y, h1, by rw [streamText_append, streamText_one, h2]; simp, by rw [h3]; simp [flText], fun hq => ?_⟩
        simp only [Bool.and_eq_true] at hq
        exact h4 hq.1
    | register hp =>
      obtain ⟨h1, Z, h2⟩ := i1 hp
      refine ⟨fun h => (by cases h), fun _ => ⟨Z, [], by simpa using h2, h1, fun hq => ?_⟩, fun h => (by cases h)⟩
      simp [Phase.entering] at hq
      exact ⟨rfl, hq.2⟩
    | stdout hp =>
      refine ⟨fun h => (by cases h), fun h => ?_, fun h _ => ?_⟩
      · have he : err = true := by simpa [uncaptured] using h
        subst he
        obtain ⟨Z, D, h1, h2, h3⟩ := i2 (by rw [hp]; rfl)
        refine ⟨Z, D, h1, ?_, fun hq => ?_⟩
        · dsimp only
          split
          · exact h2
          · rw [streamText_append, h2]; simp [streamText]
        · simp only [Bool.and_eq_true] at hq
          exact h3 hq.1
      · have he : err = false := by simpa [uncaptured] using h
        subst he
        obtain ⟨Z, D, h1, h2, h3⟩ := i2 (by rw [hp]; rfl)
        refine ⟨Z, D, flText false v.fl, [], [], by rw [h1]; simp, ?_, by simp, fun hq => ?_⟩
        · dsimp only
          split
          · next hn => rw [h2]; rw [h1] at hn; simp at hn; simp [hn]
          · rw [streamText_append, h2, h1]; simp [streamText]
        · simp only [Bool.and_eq_true] at hq
          obtain ⟨h5, h6⟩ := h3 hq.1
          exact ⟨h5, by rw [h6]; rfl⟩
    | stderr hp =>
      refine ⟨fun h => (by cases h), fun h => (by cases h), fun _ _ => ?_⟩
      cases err with
      | false =>
        obtain ⟨Z, D, f, X, Y, h1, h2, h3, h4⟩ := i3 (by rw [hp]; rfl) (by rw [hp]; rfl)
        refine ⟨Z, D, f, X, Y, h1, ?_, h3, fun hq => ?_⟩
        · dsimp only
          split
          · exact h2
          · rw [streamText_append, h2]; simp [streamText]
        · simp only [Bool.and_eq_true] at hq
          exact h4 hq.1
      | true =>
        obtain ⟨Z, D, h1, h2, h3⟩ := i2 (by rw [hp]; rfl)
        refine ⟨Z, D, flText true v.fl, [], [], by rw [h1]; simp, ?_, by simp, fun hq => ?_⟩
        · dsimp only
          split
          · next hn => rw [h2]; rw [h1] at hn; simp at hn; simp [hn]
          · rw [streamText_append, h2, h1]; simp [streamText]
        · simp only [Bool.and_eq_true] at hq
          obtain ⟨h5, h6⟩ := h3 hq.1
          exact ⟨h5, by rw [h6]; rfl⟩
    | output i d hp hd =>
      refine ⟨fun h => (by cases h), fun h => (by cases h), fun _ _ => ?_⟩
      obtain ⟨Z, D, f, X, Y, h1, h2, h3, h4⟩ := i3 (by rw [hp]; rfl) (by rw [hp]; rfl)
      refine ⟨Z, D, f, X, Y, h1, by dsimp only; rw [streamText_append, h2]; simp [streamText], h3, fun hq => ?_⟩
      simp only [Bool.and_eq_true] at hq
      exact h4 hq.1
    | outputsEnd i hp hd =>
      refine ⟨fun h => (by cases h), fun h => (by cases h), fun _ _ => ?_⟩
      obtain ⟨Z, D, f, X, Y, h1, h2, h3, h4⟩ := i3 (by rw [hp]; rfl) (by rw [hp]; rfl)
      refine ⟨Z, D, f, X, Y, h1, h2, h3, fun hq => ?_⟩
      simp only [Bool.and_eq_true] at hq
      exact h4 hq.1
    | result hp =>
      refine ⟨fun h => (by cases h), fun h => (by cases h), fun _ _ => ?_⟩
      obtain ⟨Z, D, f, X, Y, h1, h2, h3, h4⟩ := i3 (by rw [hp]; rfl) (by rw [hp]; rfl)
      refine ⟨Z, D, f, X, Y, h1, ?_, h3, fun hq => ?_⟩
      · dsimp only
        split
        · exact h2
        · rw [streamText_append, h2]; simp [streamText]
      · simp only [Bool.and_eq_true] at hq
        exact h4 hq.1
    | remove hp => exact ⟨fun h => (by cases h), fun h => (by cases h), fun _ h => (by cases h)⟩

/-! ## Rich output -/

theorem displays_append (a b : List Pub) : displays (a ++ b) = displays a ++ displays b := by
  induction a with
  | nil => rfl
  | cons p a ih => cases p <;> simp [displays, ih]

def flDisp : Option Pub → List Nat
  | some (.display d) => [d]
  | _ => []

theorem displays_one (p : Pub) : displays [p] = flDisp (some p) := by cases p <;> rfl

theorem outputs_add (md : Md) (p : Pub) : (md.add p).outputs = md.outputs ++ flDisp (some p) := by
  cases p with
  | stream e t => cases e <;> simp [Md.add, flDisp]
  | _ => simp [Md.add, flDisp]

/-- the number of captured outputs that have been shown -/
def Phase.done : Phase → Option Nat
  | .b1 | .b2 => some 0
  | .b3 i => some i
  | _ => none

def OInv (v : View) (q : Bool) : Prop :=
  (v.ph = .a → displays v.log = []) ∧
  (∀ i, v.ph.done = some i → i ≤ v.md.outputs.length ∧ (∀ d ∈ v.md.outputs.take i, d ∈ displays v.log) ∧ (q = true → displays v.log = v.md.outputs.take i ∧ v.fl = none)) ∧
  (v.ph.done = none → v.ph.registered = true → (∀ d ∈ v.md.outputs, d ∈ displays v.log ∨ d ∈ flDisp v.fl) ∧ (q = true → displays v.log ++ flDisp v.fl = v.md.outputs))

theorem oinv {C : Pub → Prop} {v : View} {q : Bool} (h : VReach C v q) : OInv v q := by
  induction h with
  | init => exact ⟨fun _ => rfl, fun _ h => (by cases h), fun _ h => (by cases h)⟩
  | @step v v' q hv hs ih =>
    obtain ⟨i1, i2, i3⟩ := ih
    cases hs with
    | refl =>
      refine ⟨i1, fun i h => ?_, fun h h' => ?_⟩
      · obtain ⟨h1, h2, h3⟩ := i2 i h
        refine ⟨h1, h2, fun hq => ?_⟩
        simp only [Bool.and_eq_true] at hq
        exact h3 hq.1
      · obtain ⟨h1, h2⟩ := i3 h h'
        refine ⟨h1, fun hq => ?_⟩
        simp only [Bool.and_eq_true] at hq
        exact h2 hq.1
    | store p hf hc =>
      have ht := outputs_add v.md p
      refine ⟨i1, fun i h => ?_, fun h h' => ?_⟩
      · obtain ⟨h1, h2, h3⟩ := i2 i h
        dsimp only
        rw [ht, List.take_append_of_le_length h1]
        refine ⟨by simp; omega, h2, fun hq => ?_⟩
        exfalso
        have : v.ph.entering = true := by revert h; cases v.ph <;> simp [Phase.done, Phase.entering]
        simp [this] at hq
      · obtain ⟨h1, h2⟩ := i3 h h'
        rw [hf] at h1 h2
        dsimp only
        rw [ht]
        refine ⟨fun d hd => ?_, fun hq => ?_⟩
        · rcases List.mem_append.1 hd with hd | hd
          · rcases h1 d hd with h | h
            · exact .inl h
            · cases h
          · exact .inr hd
        · simp only [Bool.and_eq_true] at hq
          rw [← h2 hq.1]; simp [flDisp]
    | call p hf =>
      refine ⟨fun h => ?_, fun i h => ?_, fun h h' => ?_⟩
      · have h0 : v.ph = .a := h
        dsimp only
        rw [h0]
        exact i1 h
      · obtain ⟨h1, h2, h3⟩ := i2 i h
        have hr : v.ph.registered = true := by revert h; cases v.ph <;> simp [Phase.done, Phase.registered]
        dsimp only
        rw [if_pos hr, displays_append]
        refine ⟨h1, fun d hd => List.mem_append_left _ (h2 d hd), fun hq => ?_⟩
        simp only [Bool.and_eq_true] at hq
        have := (h3 hq.1).2
        rw [hf] at this
        cases this
      · obtain ⟨h1, h2⟩ := i3 h h'
        rw [hf] at h1 h2
        dsimp only at h'
        dsimp only
        rw [if_pos h', displays_append, displays_one]
        refine ⟨fun d hd => .inl ?_, fun hq => ?_⟩
        · rcases h1 d hd with h | h
          · exact List.mem_append_left _ h
          · exact List.mem_append_right _ h
        · simp only [Bool.and_eq_true] at hq
          rw [h2 hq.1]; simp [flDisp]
    | register hp =>
      refine ⟨fun h => (by cases h), fun i h => ?_, fun h => (by cases h)⟩
      cases h
      refine ⟨by omega, by simp, fun hq => ?_⟩
      simp [Phase.entering] at hq
      exact ⟨by rw [i1 hp]; rfl, hq.2⟩
    | stdout hp =>
      refine ⟨fun h => (by cases h), fun i h => ?_, fun h => (by cases h)⟩
      cases h
      obtain ⟨h1, h2, h3⟩ := i2 0 (by rw [hp]; rfl)
      have hl : displays (if textOf v.md false = [] then v.log else v.log ++ [.stream false (textOf v.md false)]) = displays v.log := by
        split
        · rfl
        · rw [displays_append]; simp [displays]
      refine ⟨by omega, by simp, fun hq => ?_⟩
      simp only [Bool.and_eq_true] at hq
      dsimp only
      rw [hl]
      exact h3 hq.1
    | stderr hp =>
      refine ⟨fun h => (by cases h), fun i h => ?_, fun h => (by cases h)⟩
      cases h
      obtain ⟨h1, h2, h3⟩ := i2 0 (by rw [hp]; rfl)
      have hl : displays (if textOf v.md true = [] then v.log else v.log ++ [.stream true (textOf v.md true)]) = displays v.log := by
        split
        · rfl
        · rw [displays_append]; simp [displays]
      refine ⟨by omega, by simp, fun hq => ?_⟩
      simp only [Bool.and_eq_true] at hq
      dsimp only
      rw [hl]
      exact h3 hq.1
    | output i d hp hd =>
      refine ⟨fun h => (by cases h), fun i' h => ?_, fun h => (by cases h)⟩
      cases h
      obtain ⟨h1, h2, h3⟩ := i2 i (by rw [hp]; rfl)
      have hlt : i < v.md.outputs.length := (List.getElem?_eq_some_iff.1 hd).1
      have htake : v.md.outputs.take (i + 1) = v.md.outputs.take i ++ [d] := by rw [List.take_add_one, hd]; rfl
      dsimp only
      rw [htake, displays_append]
      refine ⟨hlt, fun x hx => ?_, fun hq => ?_⟩
      · rcases List.mem_append.1 hx with hx | hx
        · exact List.mem_append_left _ (h2 x hx)
        · exact List.mem_append_right _ (by simpa [displays] using hx)
      · simp only [Bool.and_eq_true] at hq
        rw [(h3 hq.1).1]
        exact ⟨rfl, (h3 hq.1).2⟩
    | outputsEnd i hp hd =>
      refine ⟨fun h => (by cases h), fun i h => (by cases h), fun _ _ => ?_⟩
      obtain ⟨h1, h2, h3⟩ := i2 i (by rw [hp]; rfl)
      have hle : v.md.outputs.length ≤ i := List.getElem?_eq_none_iff.1 hd
      rw [List.take_of_length_le hle] at h2 h3
      refine ⟨fun d hd => .inl (h2 d hd), fun hq => ?_⟩
      simp only [Bool.and_eq_true] at hq
      dsimp only
      rw [(h3 hq.1).1, (h3 hq.1).2]
      simp [flDisp]
    | result hp =>
      refine ⟨fun h => (by cases h), fun i h => (by cases h), fun _ _ => ?_⟩
      obtain ⟨h1, h2⟩ := i3 (by rw [hp]; rfl) (by rw [hp]; rfl)
      have hl : displays (match v.md.result with | none => v.log | some r => v.log ++ [.result r]) = displays v.log := by
        split
        · rfl
        · rw [displays_append]; simp [displays]
      dsimp only
      rw [hl]
      refine ⟨h1, fun hq => ?_⟩
      simp only [Bool.and_eq_true] at hq
      exact h2 hq.1
    | remove hp => exact ⟨fun h => (by cases h), fun i h => (by cases h), fun _ h => (by cases h)⟩

/-! ## What was received -/

theorem md_received (eid : Nat → Nat) (k : Nat) (evs : List Ev) : ∀ s : St, (evs.foldl (step eid) s).md k = (received k s.flight.isSome evs).foldl Md.add (s.md k) := by
  induction evs with
  | nil => intro s; rfl
  | cons ev evs ih =>
    intro s
    rw [List.foldl_cons, ih]
    cases ev with
    | main =>
      simp only [step, received]
      rw [(mainStep_frame eid s).1, (mainStep_frame eid s).2]
    | call =>
      simp only [step, received]
      cases hf : s.flight with
      | none => simp [hf]
      | some x =>
        dsimp only
        split <;> simp [callback]
    | store j p =>
      simp only [step]
      cases hf : s.flight with
      | some x => simp [hf, received]
      | none =>
        by_cases hj : j = k
        · subst hj; simp [received]
        · simp [received, hj, Ne.symm hj]

theorem textOf_fold (err : Bool) (l : List Pub) (hl : ∀ p ∈ l, NoCr p) : ∀ md : Md, textOf (l.foldl Md.add md) err = textOf md err ++ streamText err l := by
  induction l with
  | nil => intro md; simp [streamText]
  | cons p l ih =>
    intro md
    rw [List.foldl_cons, ih (fun q hq => hl q (by simp [hq])), textOf_add md err p (hl p (by simp)), ← streamText_one, List.append_assoc, ← streamText_append]
    rfl

theorem outputs_fold (l : List Pub) : ∀ md : Md, (l.foldl Md.add md).outputs = md.outputs ++ displays l := by
  induction l with
  | nil => intro md; simp [displays]
  | cons p l ih =>
    intro md
    rw [List.foldl_cons, ih, outputs_add, ← displays_one, List.append_assoc, ← displays_append]
    rfl

theorem received_mem (k : Nat) (evs : List Ev) : ∀ b, ∀ p ∈ received k b evs, Ev.store k p ∈ evs := by
  induction evs with
  | nil => intro b p h; cases h
  | cons ev evs ih =>
    intro b p h
    cases ev with
    | main => exact List.mem_cons_of_mem _ (ih _ p h)
    | call => exact List.mem_cons_of_mem _ (ih _ p h)
    | store j q =>
      simp only [received] at h
      split at h
      · exact List.mem_cons_of_mem _ (ih _ p h)
      · split at h
        · next hj =>
          rcases List.mem_cons.1 h with rfl | h
          · rw [hj]; simp
          · exact List.mem_cons_of_mem _ (ih _ p h)
        · exact List.mem_cons_of_mem _ (ih _ p h)

/-! ## C76 -/

/-- **Streamed text**, for every interleaving of the two threads, after entering and before leaving, when the IO thread is between two messages: what has been shown of a stream of a request is its whole text
`Z ++ D ++ f ++ Y`, in order, except that a part of it may be repeated: `D`, what arrived between the registration of the callback and the publication of what had been captured, was shown once before,
and `f`, the message that the IO thread was handling during the publication, is shown twice. Neither happens if no message of the request is handled while entering. -/
theorem streamed_text (eid : Nat → Nat) (ts : List Nat) (n : Nat) (prog : List Instr) (hp : program (some ts) n = some prog) (evs : List Ev) (hcr : ∀ j p, Ev.store j p ∈ evs → NoCr p)
    (k : Nat) (hk : k < ts.length) (hn : k < n) (hin : Inside k (run eid prog evs)) (hidle : (run eid prog evs).flight = none) (err : Bool) :
    ∃ Z D f Y, streamText err (received k false evs) = Z ++ D ++ f ++ Y ∧ streamText err (shown k (run eid prog evs)) = D ++ (Z ++ D ++ f) ++ f ++ Y ∧
      (Quiet eid prog k evs → D = [] ∧ f = []) := by
  obtain ⟨ts', hts, hpc⟩ := program_pc hp
  cases hts
  obtain ⟨v, q, hr, hv, hq, _⟩ := run_view eid prog k (hpc k hk hn) NoCr evs hcr
  have hreg : v.ph.registered = true := by rw [← hv.reg]; exact hin.1
  have hent : v.ph.entering = false := Bool.eq_false_iff.2 fun h => hin.2 ((entering_iff hv).2 h)
  have hun : uncaptured err v.ph = false := by
    cases hph : v.ph <;> simp [hph, Phase.entering] at hent <;> rfl
  obtain ⟨Z, D, f, X, Y, h1, h2, h3, h4⟩ := (sinv (err := err) hr).2.2 hun hreg
  have hfl : v.fl = none := by rw [← hv.fl]; unfold flightOf; rw [hidle]
  rw [hfl] at h3
  simp only [flText, List.append_nil] at h3
  have hmd := md_received eid k evs { pc := prog }
  change (run eid prog evs).md k = _ at hmd
  have htext := textOf_fold err (received k false evs) (fun p h => hcr k p (received_mem k evs _ p h)) {}
  refine ⟨Z, D, f, Y, ?_, by rw [hv.log, h2, h3]; simp, fun hquiet => h4 (hq hquiet)⟩
  rw [← h1, ← hv.md, hmd]
  change _ = textOf ((received k false evs).foldl Md.add {}) err
  rw [htext]
  cases err <;> rfl

/-- If no message of the request is handled while entering, its text is shown exactly once. -/
theorem streamed_once (eid : Nat → Nat) (ts : List Nat) (n : Nat) (prog : List Instr) (hp : program (some ts) n = some prog) (evs : List Ev) (hcr : ∀ j p, Ev.store j p ∈ evs → NoCr p)
    (k : Nat) (hk : k < ts.length) (hn : k < n) (hin : Inside k (run eid prog evs)) (hidle : (run eid prog evs).flight = none) (hq : Quiet eid prog k evs) (err : Bool) :
    streamText err (shown k (run eid prog evs)) = streamText err (received k false evs) := by
  obtain ⟨Z, D, f, Y, h1, h2, h3⟩ := streamed_text eid ts n prog hp evs hcr k hk hn hin hidle err
  obtain ⟨rfl, rfl⟩ := h3 hq
  rw [h1, h2]
  simp

/-- **Streamed rich output**: under the same conditions every rich output has been shown, and each exactly once and in order if no message of the request is handled while entering. -/
theorem streamed_outputs (eid : Nat → Nat) (ts : List Nat) (n : Nat) (prog : List Instr) (hp : program (some ts) n = some prog) (evs : List Ev)
    (k : Nat) (hk : k < ts.length) (hn : k < n) (hin : Inside k (run eid prog evs)) (hidle : (run eid prog evs).flight = none) :
    (∀ d ∈ displays (received k false evs), d ∈ displays (shown k (run eid prog evs))) ∧
    (Quiet eid prog k evs → displays (shown k (run eid prog evs)) = displays (received k false evs)) := by
  obtain ⟨ts', hts, hpc⟩ := program_pc hp
  cases hts
  obtain ⟨v, q, hr, hv, hq, _⟩ := run_view eid prog k (hpc k hk hn) (fun _ => True) evs (fun _ _ _ => trivial)
  have hreg : v.ph.registered = true := by rw [← hv.reg]; exact hin.1
  have hent : v.ph.entering = false := Bool.eq_false_iff.2 fun h => hin.2 ((entering_iff hv).2 h)
  have hun : v.ph.done = none := by
    cases hph : v.ph <;> simp [hph, Phase.entering] at hent <;> rfl
  obtain ⟨h1, h2⟩ := (oinv hr).2.2 hun hreg
  have hfl : v.fl = none := by rw [← hv.fl]; unfold flightOf; rw [hidle]
  rw [hfl] at h1 h2
  have hmd := md_received eid k evs { pc := prog }
  change (run eid prog evs).md k = _ at hmd
  have hout : v.md.outputs = displays (received k false evs) := by
    rw [← hv.md, hmd]
    change ((received k false evs).foldl Md.add {}).outputs = _
    rw [outputs_fold]
    rfl
  rw [hout] at h1 h2
  rw [hv.log]
  refine ⟨fun d hd => ?_, fun hquiet => ?_⟩
  · rcases h1 d hd with h | h
    · exact h
    · cases h
  · have := h2 (hq hquiet)
    simpa [flDisp] using this

end IPP.Stream
