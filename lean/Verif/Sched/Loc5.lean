import Verif.Sched.Loc4

/-!
# Where every task is: whole histories (lemmas)
-/
namespace IPP.Sched

variable {cfg : Config} {D : Prop} {s : State} {n : Nat}

theorem Prompt.snoc {evs : List Event} {ev : Event} (h : Prompt cfg (evs ++ [ev])) : Prompt cfg evs := by
  intro p e m ok dm q hq
  exact h p e m ok dm (q ++ [ev]) (by rw [hq]; simp)

theorem handle_loc (hL : LocAt cfg D n) (s : State) (ev : Event) (h : Inv cfg D (top D [] []) s) (hF : FOk s) (hn : fuelFor s ≤ n) (hfr : FreshIn s ev)
    (hd : D → ∀ m sub, ev = .submit m sub → NoDeps sub) (hp : ∀ e m ok dm, ev = .result e m ok dm → m ∈ assigned e s.trace) :
    HoareE (fun s' => s' = s) (handle cfg n ev) (fun _ => Inv cfg D (top D [] [])) (UErr cfg D [] []) := by
  have hE := enough_fuelFor s hn
  have hE0 : ∀ q, q ≤ s.queue.length + s.allIds.length → Enough s.allIds.length s.allIds.length q n := fun q hq =>
    (hE.mono (by omega) (by omega)).monoL (by omega)
  unfold handle
  cases ev with
  | submit m sub => exact ((dispatchSubmission_loc hL m sub fun hD => hd hD m sub rfl).at ⟨h, hfr⟩).conseq (fun _ h => h) (fun _ _ h => h) (fun _ _ h => TErr.weak h)
  | register e => exact ((registerEngine_loc hL e).at ⟨h, hfr⟩).conseq (fun _ h => h) (fun _ _ h => h) (fun _ _ h => TErr.weak h)
  | unregister e => exact (unregisterEngine_loc e).at h
  | result e m ok dm =>
    refine HoareE.emit fun s₁ hs₁ => ?_
    subst hs₁
    exact (dispatchResult_loc hL h (Or.inl ⟨ok, dm, rfl⟩) (hp e m ok dm rfl) (by simp)).conseq (fun _ h => h) (fun _ _ h => h) (fun _ _ h => TErr.weak h)
  | strandTimer e =>
    refine HoareE.getS fun s₁ hs₁ => ?_
    subst hs₁
    refine HoareE.ite (fun he => ?_) fun _ => HoareE.pure fun s hs' => hs' ▸ h
    refine HoareE.modS fun s₂ hs₂ => ?_
    subst hs₂
    exact (handleStranded_loc hL e (hE0 _ (Nat.le_refl _)) h he hF).conseq (fun _ h => h) (fun _ _ h => h.1) (fun _ _ h => h.elim)
  | jobTimer m tid =>
    refine HoareE.getS fun s₁ hs₁ => ?_
    subst hs₁
    refine HoareE.ite (fun _ => ?_) fun _ => HoareE.pure fun s hs' => hs' ▸ h
    refine HoareE.modS fun s₂ hs₂ => ?_
    subst hs₂
    exact (jobTimeout_loc hL m tid).at { h with }

theorem inv_init : Inv cfg D (top D [] []) {} where
  pn := fun _ _ => rfl
  ps := fun _ _ h => by cases h
  nod := fun _ => List.nodup_nil
  excl := fun _ _ _ h => by cases h
  asg := fun _ _ h => by cases h
  tnd := List.nodup_nil
  reg := fun _ h => by cases h
  load := rfl
  dead := fun _ h => absurd rfl h
  tim := fun _ h => absurd rfl h
  stt := fun _ h => by cases h
  stn := List.nodup_nil
  sin := fun _ h => by cases h
  fre := fun _ _ => ⟨rfl, List.not_mem_nil, List.not_mem_nil⟩
  qm := fun _ h => by cases h
  rep := fun _ => Nat.zero_le _
  unk := fun _ _ => rfl
  alf := fun _ h => by cases h
  ret := fun _ _ h => by cases h
  dep := fun _ => ⟨fun _ => rfl, fun _ _ h => by cases h⟩
  sub := fun _ _ h => by cases h
  sent := fun p e m q h => by simp at h
  fe := fun h => h.elim
  rr := fun _ h => by cases h
  que := List.nodup_nil
  qin := fun _ h => by cases h
  lost := fun _ _ _ h => by cases h
  wait := fun _ _ h => by cases h
  rem := fun _ _ _ h => by cases h

theorem run_loc (hC : D ∨ cfg.hwm = 1) (hP : D → ∀ tr l, l ≠ [] → cfg.pick tr l < l.length) (evs : List Event) (hf : Fresh evs)
    (hd : D → ∀ m sub, Event.submit m sub ∈ evs → NoDeps sub) (hp : Prompt cfg evs) : Inv cfg D (top D [] []) (run cfg evs) := by
  induction evs using snoc_induction with
  | nil => exact inv_init
  | snoc evs ev ih =>
    have h := ih hf.snoc (fun hD m sub hm => hd hD m sub (by simp [hm])) hp.snoc
    have hb := run_base cfg evs hf.snoc
    rw [run_snoc]
    have hok := run_ok (cfg := cfg) evs
    have h1 := handle_loc (n := fuelFor (run cfg evs)) (locAt hC hP _) (run cfg evs) ev h hok (Nat.le_refl _) (hf.freshIn hb.1 hb.2)
      (fun hD m sub hev => hd hD m sub (by simp [hev])) (fun e m ok dm hev => hp evs e m ok dm [] (by rw [hev]))
    have h2 := handle_fuel (cfg := cfg) (n := fuelFor (run cfg evs)) (run cfg evs) ev hok (Nat.le_refl _)
    exact (h1.and h2).final (fun _ _ h => h.1) (fun _ _ h => h.1 h.2.1) ⟨rfl, rfl⟩

end IPP.Sched
