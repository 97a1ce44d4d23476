import Verif.Life.Lemmas
/-!
# Lives of engines: the invariant
-/
namespace IPP.Life
open Hub (Uuid Eid Reg delKey getKey)

namespace Spec

/-- the hub lists the engine `u` under the id `e` -/
def Listed (s : Sys) (u : Uuid) (e : Eid) : Prop := (e, u) ∈ s.reg.engines

/-- what clients were told about the engine `u` -/
def notices (u : Uuid) (notes : List Hub.Note) : List Hub.Note := notes.filter fun
  | .registered v _ => decide (v = u)
  | .unregistered v _ => decide (v = u)
  | _ => false

end Spec

/-- the process of one engine, its messages and the reply to it -/
structure LP (p : Proc) (q : List Msg) (r : Option (Option Eid)) : Prop where
  absent : p.phase = .absent → p = {} ∧ q = [] ∧ r = none
  tail : ∀ m ∈ q.tail, ∀ x, m ≠ .register x
  head : ∀ x, .register x ∈ q → r = none
  told : p.told = true → ∃ e, r = some (some e) ∧ p.id = some e
  phase : p.phase = .starting ∨ p.phase = .running → p.told = true
  heart : p.heart = true → p.told = true

structure Inv (s : Sys) : Prop where
  reg : Hub.Inv s.reg
  lp : ∀ u, LP (s.proc u) (s.toHub u) (s.reply u)
  known : ∀ u e, (u, e) ∈ s.reg.incoming ∨ (e, u) ∈ s.reg.engines → s.reply u = some (some e)
  resp : ∀ u, u ∈ s.hm.responses ∨ u ∈ s.hm.hearts ∨ Heart.Note.new u ∈ s.hm.notes → (s.proc u).heart = true
  listed : ∀ u e, (e, u) ∈ s.reg.engines → (s.proc u).heart = true
  notices : ∀ u, (∃ e, (e, u) ∈ s.reg.engines ∧ Spec.notices u s.notes = [.registered u e]) ∨
    ((∀ e, (e, u) ∉ s.reg.engines) ∧ (Spec.notices u s.notes = [] ∨
      ∃ e, Spec.notices u s.notes = [.registered u e, .unregistered u e] ∧ (∀ e', (u, e') ∉ s.reg.incoming) ∧ s.reply u ≠ none))
  bound : s.handled ≤ s.hm.notes.length
  monitored : ∀ u e, (e, u) ∈ s.reg.engines → u ∈ s.hm.hearts ∨ Heart.Note.stopped u ∈ s.hm.notes.drop s.handled
  queue : ∀ u p q, s.hm.notes.drop s.handled = p ++ Heart.Note.new u :: q → u ∈ s.hm.hearts ∨ Heart.Note.stopped u ∈ q

theorem Inv.init : Inv init where
  reg := Hub.Inv.fresh none
  lp := fun u => ⟨fun _ => ⟨rfl, rfl, rfl⟩, by simp [Life.init], by simp [Life.init], by simp [Life.init], by simp [Life.init], by simp [Life.init]⟩
  known := by simp [Life.init, Hub.fresh]
  resp := by simp [Life.init]
  listed := by simp [Life.init, Hub.fresh]
  notices := fun u => Or.inr ⟨by simp [Life.init, Hub.fresh], Or.inl rfl⟩
  bound := Nat.le_refl _
  monitored := by simp [Life.init, Hub.fresh]
  queue := by simp [Life.init]

/-- only processes and their messages change -/
theorem Inv.procs {s s' : Sys} (h : Inv s) (hr : s'.reg = s.reg) (hrep : s'.reply = s.reply) (hn : s'.notes = s.notes) (hm : s'.hm = s.hm) (hh : s'.handled = s.handled)
    (hlp : ∀ u, LP (s'.proc u) (s'.toHub u) (s.reply u)) (hheart : ∀ u, (s.proc u).heart = true → (s'.proc u).heart = true) : Inv s' where
  reg := hr ▸ h.reg
  lp := fun u => by rw [hrep]; exact hlp u
  known := by rw [hr, hrep]; exact h.known
  resp := by rw [hm]; exact fun u hu => hheart u (h.resp u hu)
  listed := by rw [hr]; exact fun u e hu => hheart u (h.listed u e hu)
  notices := by rw [hr, hn, hrep]; exact h.notices
  bound := by rw [hm, hh]; exact h.bound
  monitored := by rw [hr, hm, hh]; exact h.monitored
  queue := by rw [hm, hh]; exact h.queue

/-- only the process of one engine and its messages change -/
theorem Inv.proc {s : Sys} (h : Inv s) (u : Uuid) (p : Proc) (q : List Msg) (hlp : LP p q (s.reply u)) (hheart : (s.proc u).heart = true → p.heart = true) :
    Inv { s with proc := upd s.proc u p, toHub := upd s.toHub u q } := by
  refine h.procs rfl rfl rfl rfl rfl ?_ ?_
  · intro v
    by_cases hv : v = u
    · subst hv; simpa using hlp
    · simp only [upd_other _ _ hv]; exact h.lp v
  · intro v
    by_cases hv : v = u
    · subst hv; simpa using hheart
    · simp only [upd_other _ _ hv]; exact id

theorem LP.send {p : Proc} {q : List Msg} {r : Option (Option Eid)} (h : LP p q r) (ha : p.phase ≠ .absent) (p' : Proc) (ha' : p'.phase = .gone) (h1 : p'.told = p.told) (h2 : p'.id = p.id) (h3 : p'.heart = p.heart)
    (i : Option Eid) : LP p' (q ++ [.unregister i]) r where
  absent := by rw [ha']; intro hc; cases hc
  tail := by
    intro m hm x
    cases q with
    | nil => simp at hm
    | cons a b =>
      simp at hm
      rcases hm with hm | hm
      · exact h.tail m (by simpa using hm) x
      · subst hm; simp
  head := by intro x hx; simp at hx; exact h.head x hx
  told := by rw [h1, h2]; exact h.told
  phase := by rw [ha']; rintro (hc | hc) <;> cases hc
  heart := by rw [h1, h3]; exact h.heart

theorem LP.gone {p : Proc} {q : List Msg} {r : Option (Option Eid)} (h : LP p q r) (p' : Proc) (ha' : p'.phase = .gone) (h1 : p'.told = p.told) (h2 : p'.id = p.id) (h3 : p'.heart = p.heart) :
    LP p' q r where
  absent := by rw [ha']; intro hc; cases hc
  tail := h.tail
  head := h.head
  told := by rw [h1, h2]; exact h.told
  phase := by rw [ha']; rintro (hc | hc) <;> cases hc
  heart := by rw [h1, h3]; exact h.heart

theorem upd_id {α : Type} (f : Uuid → α) (u : Uuid) : upd f u (f u) = f := by
  funext x; unfold upd; split
  · next h => rw [h]
  · rfl

theorem notices_append (u : Uuid) (a b : List Hub.Note) : Spec.notices u (a ++ b) = Spec.notices u a ++ Spec.notices u b := by simp [Spec.notices]

/-- the hub registers an engine -/
theorem Inv.hubNew {s : Sys} (h : Inv s) (u : Uuid) (hu : (s.proc u).heart = true) (hmon : u ∈ s.hm.hearts ∨ Heart.Note.stopped u ∈ s.hm.notes.drop s.handled) :
    Inv (hubStep s (.newHeart u)) := by
  rcases newHeart_eff h.reg u with ⟨e, hin, h1, h2, h3⟩ | ⟨he, -⟩
  · have hreg : Hub.Inv (Hub.step s.reg (.newHeart u)).1 := h.reg.step (e := .newHeart u) trivial
    refine ⟨hreg, h.lp, ?_, h.resp, ?_, ?_, h.bound, ?_, h.queue⟩
    · intro v i hv
      simp only [hubStep, h1, h2, Hub.mem_delKey, List.mem_append, List.mem_singleton, Prod.mk.injEq] at hv
      rcases hv with ⟨hv, -⟩ | hv | ⟨rfl, rfl⟩
      · exact h.known v i (Or.inl hv)
      · exact h.known v i (Or.inr hv)
      · exact h.known _ _ (Or.inl hin)
    · intro v i hv
      simp only [hubStep, h1, List.mem_append, List.mem_singleton, Prod.mk.injEq] at hv
      rcases hv with hv | ⟨rfl, rfl⟩
      · exact h.listed v i hv
      · exact hu
    · intro v
      simp only [hubStep, h3, notices_append]
      by_cases hv : v = u
      · subst hv
        left
        refine ⟨e, by rw [h1]; simp, ?_⟩
        have hnot : Spec.notices v s.notes = [] := by
          rcases h.notices v with ⟨e', he', -⟩ | ⟨-, h0 | ⟨e', -, hc, -⟩⟩
          · exact (not_both h.reg he' hin).elim
          · exact h0
          · exact absurd hin (hc e)
        rw [hnot]; simp [Spec.notices]
      · have hz : Spec.notices v [.registered u e] = [] := by simp [Spec.notices, Ne.symm hv]
        rw [hz, List.append_nil]
        have hmem : ∀ i, (i, v) ∈ (Hub.step s.reg (.newHeart u)).1.engines ↔ (i, v) ∈ s.reg.engines := by
          intro i; rw [h1]; simp [hv]
        rcases h.notices v with ⟨e', he', hn⟩ | ⟨h0, hn⟩
        · exact Or.inl ⟨e', (hmem e').2 he', hn⟩
        · refine Or.inr ⟨fun i hi => h0 i ((hmem i).1 hi), ?_⟩
          rcases hn with hn | ⟨e', hn, hc, hr⟩
          · exact Or.inl hn
          · refine Or.inr ⟨e', hn, fun i hi => hc i ?_, hr⟩
            rw [h2] at hi
            exact (Hub.mem_delKey.1 hi).1
    · intro v i hv
      simp only [hubStep, h1, List.mem_append, List.mem_singleton, Prod.mk.injEq] at hv
      rcases hv with hv | ⟨rfl, rfl⟩
      · exact h.monitored v i hv
      · exact hmon
  · have : hubStep s (.newHeart u) = s := by simp [hubStep, he]
    rw [this]; exact h

/-- the hub's tables lose an engine -/
theorem Inv.hubDel {s : Sys} (h : Inv s) (r : Hub.Reg) (hr : Hub.Inv r) (u : Uuid) (e : Eid) (hm : (e, u) ∈ s.reg.engines) (h1 : r.engines = s.reg.engines.filter (fun x => x ≠ (e, u)))
    (h2 : r.incoming = s.reg.incoming) : Inv { s with reg := r, notes := s.notes ++ [.unregistered u e] } := by
  have hsub : ∀ x, x ∈ r.engines → x ∈ s.reg.engines := by intro x hx; rw [h1] at hx; exact (List.mem_filter.1 hx).1
  refine ⟨hr, h.lp, ?_, h.resp, ?_, ?_, h.bound, ?_, h.queue⟩
  · intro v i hv
    rcases hv with hv | hv
    · rw [h2] at hv; exact h.known v i (Or.inl hv)
    · exact h.known v i (Or.inr (hsub _ hv))
  · intro v i hv; exact h.listed v i (hsub _ hv)
  · intro v
    simp only [notices_append]
    by_cases hv : v = u
    · subst hv
      right
      have hgone : ∀ i, (i, v) ∉ r.engines := by
        intro i hi
        have := uuid_once h.reg (hsub _ hi) hm
        subst this
        rw [h1] at hi
        simp at hi
      refine ⟨hgone, Or.inr ⟨e, ?_, ?_, ?_⟩⟩
      · rcases h.notices v with ⟨e', he', hn⟩ | ⟨h0, -⟩
        · have := uuid_once h.reg he' hm
          subst this
          rw [hn]; simp [Spec.notices]
        · exact absurd hm (h0 e)
      · intro e' he'
        rw [h2] at he'
        exact not_both h.reg hm he'
      · rw [h.known v e (Or.inr hm)]; simp
    · have hz : Spec.notices v [.unregistered u e] = [] := by simp [Spec.notices, Ne.symm hv]
      rw [hz, List.append_nil]
      have hmem : ∀ i, (i, v) ∈ r.engines ↔ (i, v) ∈ s.reg.engines := by
        intro i; rw [h1]; simp [hv]
      rcases h.notices v with ⟨e', he', hn⟩ | ⟨h0, hn⟩
      · exact Or.inl ⟨e', (hmem e').2 he', hn⟩
      · exact Or.inr ⟨fun i hi => h0 i ((hmem i).1 hi), by rw [h2]; exact hn⟩
  · intro v i hv; exact h.monitored v i (hsub _ hv)

/-- pending registrations are dropped -/
theorem Inv.hubDrop {s : Sys} (h : Inv s) (r : Hub.Reg) (hr : Hub.Inv r) (h1 : r.engines = s.reg.engines) (h2 : ∀ x, x ∈ r.incoming → x ∈ s.reg.incoming) : Inv { s with reg := r } := by
  refine ⟨hr, h.lp, ?_, h.resp, ?_, ?_, h.bound, ?_, h.queue⟩
  · intro v i hv
    rcases hv with hv | hv
    · exact h.known v i (Or.inl (h2 _ hv))
    · rw [h1] at hv; exact h.known v i (Or.inr hv)
  · intro v i hv; simp only [h1] at hv; exact h.listed v i hv
  · intro v
    simp only [h1]
    rcases h.notices v with ⟨e', he', hn⟩ | ⟨h0, hn⟩
    · exact Or.inl ⟨e', he', hn⟩
    · refine Or.inr ⟨h0, ?_⟩
      rcases hn with hn | ⟨e', hn, hc, hr⟩
      · exact Or.inl hn
      · exact Or.inr ⟨e', hn, fun i hi => hc i (h2 _ hi), hr⟩
  · intro v i hv; simp only [h1] at hv; exact h.monitored v i hv

theorem Inv.hubUnregister {s : Sys} (h : Inv s) (e : Eid) : Inv (hubStep s (.unregister e)) := by
  have hreg : Hub.Inv (Hub.step s.reg (.unregister e)).1 := h.reg.step (e := .unregister e) trivial
  rcases unregister_eff h.reg e with ⟨u, hm, h1, h2, h3⟩ | ⟨-, h1, h2, h3⟩
  · have := h.hubDel (Hub.unregister s.reg e).1 hreg u e hm h1 h2
    simpa [hubStep, Hub.step, h3] using this
  · have := h.hubDrop (Hub.unregister s.reg e).1 hreg h1 (fun x hx => ((h2 x).1 hx).1)
    simpa [hubStep, Hub.step, h3] using this

theorem Inv.hubStopped {s : Sys} (h : Inv s) (u : Uuid) : Inv (hubStep s (.stoppedHeart u)) := by
  have hreg : Hub.Inv (Hub.step s.reg (.stoppedHeart u)).1 := h.reg.step (e := .stoppedHeart u) trivial
  rcases stopped_eff h.reg u with ⟨e, hm, h1, h2, h3⟩ | ⟨he, -⟩
  · have := h.hubDel _ hreg u e hm h1 h2
    simpa [hubStep, h3] using this
  · have : hubStep s (.stoppedHeart u) = s := by simp [hubStep, he]
    rw [this]; exact h

theorem Inv.hubStall {s : Sys} (h : Inv s) (u : Uuid) : Inv (hubStep s (.stall u)) := by
  have hreg : Hub.Inv (Hub.step s.reg (.stall u)).1 := h.reg.step (e := .stall u) trivial
  have := h.hubDrop _ hreg rfl (fun x hx => (Hub.mem_delKey.1 hx).1)
  simpa [hubStep, Hub.step] using this

/-- the hub answers a registration -/
theorem Inv.hubRegister {s : Sys} (h : Inv s) (u : Uuid) (q : Option Eid) (rest : List Msg) (hq : s.toHub u = .register q :: rest) :
    Inv (hubMsg { s with toHub := upd s.toHub u rest } u (.register q)) := by
  have hreg : Hub.Inv (Hub.register s.reg u q).1 := h.reg.register u q
  have hlp := h.lp u
  have hrep : s.reply u = none := hlp.head q (by rw [hq]; simp)
  have hnotin : ∀ e, (u, e) ∉ s.reg.incoming ∧ (e, u) ∉ s.reg.engines := by
    intro e
    constructor <;> intro hc
    · have := h.known u e (Or.inl hc); rw [hrep] at this; cases this
    · have := h.known u e (Or.inr hc); rw [hrep] at this; cases this
  have hnt : (s.proc u).told = false := by
    cases ht : (s.proc u).told
    · rfl
    · obtain ⟨e, he, -⟩ := hlp.told ht
      rw [hrep] at he; cases he
  have hrest : ∀ m ∈ rest, ∀ x, m ≠ .register x := by
    intro m hm x; exact hlp.tail m (by rw [hq]; exact hm) x
  have hlp' : ∀ g : Option Eid, ∀ v, LP (s.proc v) (upd s.toHub u rest v) (upd s.reply u (some g) v) := by
    intro g v
    by_cases hv : v = u
    · subst hv
      simp only [upd_same]
      refine ⟨?_, ?_, ?_, ?_, hlp.phase, hlp.heart⟩
      · intro ha
        have := (hlp.absent ha).2.1
        rw [hq] at this; cases this
      · intro m hm x
        cases rest with
        | nil => simp at hm
        | cons a b => exact hrest m (by simp at hm ⊢; exact Or.inr hm) x
      · intro x hx; exact absurd rfl (hrest _ hx x)
      · rw [hnt]; intro hc; cases hc
    · simp only [upd_other _ _ hv]; exact h.lp v
  obtain ⟨h1, h2⟩ := register_eff h.reg u q
  rcases h2 with ⟨id, a, h2, h3, -⟩ | ⟨h2, h3⟩
  · simp only [hubMsg, hubStep, Hub.step, h2]
    refine ⟨hreg, hlp' _, ?_, h.resp, ?_, ?_, h.bound, ?_, h.queue⟩
    · intro v i hv
      simp only [h1, h3, List.mem_append, List.mem_singleton, Prod.mk.injEq] at hv
      by_cases hvu : v = u
      · subst hvu
        rcases hv with (hv | ⟨-, rfl⟩) | hv
        · exact absurd hv (hnotin i).1
        · simp
        · exact absurd hv (hnotin i).2
      · simp only [upd_other _ _ hvu]
        rcases hv with (hv | ⟨hc, -⟩) | hv
        · exact h.known v i (Or.inl hv)
        · exact absurd hc hvu
        · exact h.known v i (Or.inr hv)
    · intro v i hv; simp only [h1] at hv; exact h.listed v i hv
    · intro v
      have hz : Spec.notices v [Hub.Note.granted u id a] = [] := by simp [Spec.notices]
      simp only [notices_append, hz, List.append_nil, h1]
      rcases h.notices v with ⟨e', he', hn⟩ | ⟨h0, hn⟩
      · exact Or.inl ⟨e', he', hn⟩
      · refine Or.inr ⟨h0, ?_⟩
        rcases hn with hn | ⟨e', hn, hc, hr⟩
        · exact Or.inl hn
        · have hvu : v ≠ u := by rintro rfl; exact hr hrep
          refine Or.inr ⟨e', hn, ?_, by simpa [upd_other _ _ hvu] using hr⟩
          intro i hi
          rw [h3] at hi
          simp [hvu] at hi
          exact hc i hi
    · intro v i hv; simp only [h1] at hv; exact h.monitored v i hv
  · simp only [hubMsg, hubStep, Hub.step, h2]
    refine ⟨hreg, hlp' _, ?_, h.resp, ?_, ?_, h.bound, ?_, h.queue⟩
    · intro v i hv
      simp only [h1, h3] at hv
      have hvu : v ≠ u := by
        rintro rfl
        rcases hv with hv | hv
        · exact (hnotin i).1 hv
        · exact (hnotin i).2 hv
      simp only [upd_other _ _ hvu]
      exact h.known v i hv
    · intro v i hv; simp only [h1] at hv; exact h.listed v i hv
    · intro v
      have hz : Spec.notices v [Hub.Note.refused u] = [] := by simp [Spec.notices]
      simp only [notices_append, hz, List.append_nil, h1, h3]
      rcases h.notices v with ⟨e', he', hn⟩ | ⟨h0, hn⟩
      · exact Or.inl ⟨e', he', hn⟩
      · refine Or.inr ⟨h0, ?_⟩
        rcases hn with hn | ⟨e', hn, hc, hr⟩
        · exact Or.inl hn
        · have hvu : v ≠ u := by rintro rfl; exact hr hrep
          exact Or.inr ⟨e', hn, hc, by simpa [upd_other _ _ hvu] using hr⟩
    · intro v i hv; simp only [h1] at hv; exact h.monitored v i hv

theorem drop_append_le {α : Type} (l m : List α) (n : Nat) (h : n ≤ l.length) : (l ++ m).drop n = l.drop n ++ m := by
  rw [List.drop_append]
  have : n - l.length = 0 := by omega
  rw [this]; simp

theorem Inv.beat {s : Sys} (h : Inv s) (max dt : Nat) : Inv { s with hm := Heart.beat max s.hm dt } := by
  have hnotes := Heart.beat_notes max s.hm dt
  have hdrop : (Heart.beat max s.hm dt).notes.drop s.handled = s.hm.notes.drop s.handled ++ ((Heart.newAt s.hm).map .new ++ (Heart.failAt max s.hm).map .stopped) := by
    rw [hnotes, drop_append_le _ _ _ h.bound]
  have hstay : ∀ u, u ∈ s.hm.hearts → u ∈ (Heart.beat max s.hm dt).hearts ∨ u ∈ Heart.failAt max s.hm := by
    intro u hu
    by_cases hf : u ∈ Heart.failAt max s.hm
    · exact Or.inr hf
    · exact Or.inl ((Heart.beat_hearts max s.hm dt u).2 (Or.inl ⟨hu, hf⟩))
  refine ⟨h.reg, h.lp, h.known, ?_, h.listed, h.notices, ?_, ?_, ?_⟩
  · rintro u (hu | hu | hu)
    · simp [beat_resp] at hu
    · rcases (Heart.beat_hearts max s.hm dt u).1 hu with ⟨h1, -⟩ | h1
      · exact h.resp u (Or.inr (Or.inl h1))
      · exact h.resp u (Or.inl (List.mem_filter.1 h1).1)
    · simp only [hnotes, List.mem_append, List.mem_map] at hu
      rcases hu with hu | ⟨x, hx, he⟩ | ⟨x, -, he⟩
      · exact h.resp u (Or.inr (Or.inr hu))
      · cases he; exact h.resp _ (Or.inl (List.mem_filter.1 hx).1)
      · cases he
  · show s.handled ≤ (Heart.beat max s.hm dt).notes.length
    rw [hnotes, List.length_append]; exact Nat.le_trans h.bound (Nat.le_add_right _ _)
  · intro u e he
    show _ ∨ _ ∈ (Heart.beat max s.hm dt).notes.drop s.handled
    rw [hdrop]
    rcases h.monitored u e he with h1 | h1
    · rcases hstay u h1 with h2 | h2
      · exact Or.inl h2
      · right; simp [h2]
    · right; simp [h1]
  · intro u p q hpq
    have hpq : (Heart.beat max s.hm dt).notes.drop s.handled = p ++ Heart.Note.new u :: q := hpq
    rw [hdrop] at hpq
    rcases List.append_eq_append_iff.1 hpq with ⟨a, rfl, ha⟩ | ⟨a, ha, hb⟩
    · -- the note is new
      have hmem : Heart.Note.new u ∈ (Heart.newAt s.hm).map Heart.Note.new ++ (Heart.failAt max s.hm).map .stopped := by rw [ha]; simp
      simp only [List.mem_append, List.mem_map] at hmem
      rcases hmem with ⟨x, hx, he⟩ | ⟨x, -, he⟩
      · cases he
        exact Or.inl ((Heart.beat_hearts max s.hm dt u).2 (Or.inr hx))
      · cases he
    · cases a with
      | nil =>
        have hmem : Heart.Note.new u ∈ (Heart.newAt s.hm).map Heart.Note.new ++ (Heart.failAt max s.hm).map .stopped := by
          simp at hb; rw [← hb]; simp
        simp only [List.mem_append, List.mem_map] at hmem
        rcases hmem with ⟨x, hx, he⟩ | ⟨x, -, he⟩
        · cases he
          exact Or.inl ((Heart.beat_hearts max s.hm dt u).2 (Or.inr hx))
        · cases he
      | cons y a =>
        simp only [List.cons_append, List.cons.injEq] at hb
        obtain ⟨rfl, rfl⟩ := hb
        rcases h.queue u p a ha with h1 | h1
        · rcases hstay u h1 with h2 | h2
          · exact Or.inl h2
          · right; simp [h2]
        · right; simp [h1]

theorem Inv.pong {s : Sys} (h : Inv s) (u t : Nat) (hu : (s.proc u).heart = true) : Inv { s with hm := Heart.handlePong s.hm u t } := by
  obtain ⟨h1, h2, h3, h4⟩ := pong_rest s.hm u t
  refine ⟨h.reg, h.lp, h.known, ?_, h.listed, h.notices, by rw [h1]; exact h.bound, by rw [h1, h2]; exact h.monitored, by rw [h1, h2]; exact h.queue⟩
  rw [h1, h2]
  rintro v (hv | hv | hv)
  · rcases pong_resp _ _ _ _ hv with hv | rfl
    · exact h.resp v (Or.inl hv)
    · exact hu
  · exact h.resp v (Or.inr (Or.inl hv))
  · exact h.resp v (Or.inr (Or.inr hv))

/-- taking a note from the queue of the heart monitor -/
theorem Inv.note {s : Sys} (h : Inv s) {n : Heart.Note} (hn : s.hm.notes[s.handled]? = some n) : Inv (hubNote { s with handled := s.handled + 1 } n) := by
  have hlt : s.handled < s.hm.notes.length := by
    rcases Nat.lt_or_ge s.handled s.hm.notes.length with hl | hl
    · exact hl
    · rw [List.getElem?_eq_none hl] at hn; cases hn
  have hget : s.hm.notes[s.handled] = n := by rw [List.getElem?_eq_getElem hlt] at hn; exact Option.some.inj hn
  have hdrop : s.hm.notes.drop s.handled = n :: s.hm.notes.drop (s.handled + 1) := by
    rw [List.drop_eq_getElem_cons hlt, hget]
  cases n with
  | new u =>
    have hmon := h.queue u [] _ hdrop
    have h' : Inv { s with handled := s.handled + 1 } := by
      refine ⟨h.reg, h.lp, h.known, h.resp, h.listed, h.notices, hlt, ?_, ?_⟩
      · intro v e hv
        rcases h.monitored v e hv with h1 | h1
        · exact Or.inl h1
        · rw [hdrop] at h1
          simp at h1
          exact Or.inr h1
      · intro v p q hpq
        refine h.queue v (.new u :: p) q ?_
        rw [hdrop]
        show _ = Heart.Note.new u :: (p ++ _)
        rw [← hpq]
    exact h'.hubNew u (h.resp u (Or.inr (Or.inr (List.mem_of_getElem? hn)))) hmon
  | stopped u =>
    -- after the hub has handled the note, the engine is not listed
    have hreg : Hub.Inv (Hub.step s.reg (.stoppedHeart u)).1 := h.reg.step (e := .stoppedHeart u) trivial
    have hgone : ∀ e, (e, u) ∉ (Hub.step s.reg (.stoppedHeart u)).1.engines := by
      rcases stopped_eff h.reg u with ⟨e, hm, h1, h2, h3⟩ | ⟨he, hno⟩
      · intro i hi
        rw [h1] at hi
        have hi' := (List.mem_filter.1 hi)
        have := uuid_once h.reg hi'.1 hm
        subst this
        simp at hi'
      · rw [he]; exact hno
    have h1 := h.hubStopped u
    refine ⟨h1.reg, h1.lp, h1.known, h1.resp, h1.listed, h1.notices, hlt, ?_, ?_⟩
    · intro v e hv
      have hvu : v ≠ u := by rintro rfl; exact hgone e hv
      rcases h1.monitored v e hv with h2 | h2
      · exact Or.inl h2
      · right
        have h2 : Heart.Note.stopped v ∈ s.hm.notes.drop s.handled := h2
        rw [hdrop] at h2
        simp [hvu] at h2
        exact h2
    · intro v p q hpq
      refine h.queue v (.stopped u :: p) q ?_
      rw [hdrop]
      show _ = Heart.Note.stopped u :: (p ++ _)
      rw [← hpq]; rfl

theorem Inv.step {s : Sys} (h : Inv s) (max : Nat) (e : Ev) : Inv (step max s e) := by
  cases e with
  | start u r =>
    simp only [Life.step]
    split
    · rename_i ha
      obtain ⟨hp, hq, hr⟩ := (h.lp u).absent ha
      refine h.proc u _ _ ⟨by simp, by simp, by intro x hx; exact hr, by simp, by simp, by simp⟩ ?_
      rw [hp]; simp
    · exact h
  | timeout u =>
    simp only [Life.step]
    split
    · rename_i ha
      exact h.proc u _ _ ((h.lp u).send (by rw [ha]; simp) { s.proc u with phase := .gone } rfl rfl rfl rfl _) id
    · exact h
  | reply u =>
    simp only [Life.step]
    split
    · rename_i ha
      cases hr : s.reply u with
      | none => exact h
      | some g =>
        cases g with
        | none =>
          have := h.proc u { s.proc u with phase := .gone } (s.toHub u) ((h.lp u).gone _ rfl rfl rfl rfl) id
          rw [upd_id] at this
          exact this
        | some e =>
          have hl := h.lp u
          have := h.proc u { s.proc u with phase := .starting, id := some e, told := true } (s.toHub u)
            ⟨by simp, hl.tail, hl.head, fun _ => ⟨e, hr, rfl⟩, fun _ => rfl, fun _ => rfl⟩ id
          rw [upd_id] at this
          exact this
    · exact h
  | heart u =>
    simp only [Life.step]
    split
    · rename_i ha
      have hl := h.lp u
      have ht := hl.phase (Or.inl ha)
      have := h.proc u { s.proc u with phase := .running, heart := true } (s.toHub u)
        ⟨by simp, hl.tail, hl.head, hl.told, fun _ => ht, fun _ => ht⟩ (fun _ => rfl)
      rw [upd_id] at this
      exact this
    · exact h
  | die u =>
    simp only [Life.step]
    split
    · exact h
    · have := h.proc u { s.proc u with phase := .gone } (s.toHub u) ((h.lp u).gone _ rfl rfl rfl rfl) id
      rw [upd_id] at this
      exact this
  | giveUp u =>
    simp only [Life.step]
    split
    · rename_i ha
      exact h.proc u _ _ ((h.lp u).send (by rw [ha]; simp) { s.proc u with phase := .gone } rfl rfl rfl rfl _) id
    · exact h
  | nanny u =>
    simp only [Life.step]
    split
    · rename_i ha
      have := h.proc u (s.proc u) _ ((h.lp u).send (by rw [ha.1]; simp) _ ha.1 rfl rfl rfl (s.proc u).id) id
      rw [upd_id] at this
      exact this
    · exact h
  | hub u =>
    simp only [Life.step]
    cases hq : s.toHub u with
    | nil => exact h
    | cons m rest =>
      cases m with
      | register q => exact h.hubRegister u q rest hq
      | unregister i =>
        have hl := h.lp u
        have h' : Inv { s with toHub := upd s.toHub u rest } := by
          have := h.proc u (s.proc u) rest ⟨?_, ?_, ?_, hl.told, hl.phase, hl.heart⟩ id
          · rw [upd_id] at this; exact this
          · intro ha
            have := (hl.absent ha).2.1
            rw [hq] at this; cases this
          · intro m hm x
            refine hl.tail m ?_ x
            rw [hq]
            cases rest with
            | nil => simp at hm
            | cons a b => simp at hm ⊢; exact Or.inr hm
          · intro x hx
            exact hl.head x (by rw [hq]; simp [hx])
        cases i with
        | none => exact h'
        | some i => exact h'.hubUnregister i
  | pong u t =>
    simp only [Life.step]
    split
    · rename_i hu; exact h.pong u t hu
    · exact h
  | beat dt => exact h.beat max dt
  | note =>
    simp only [Life.step]
    cases hn : s.hm.notes[s.handled]? with
    | none => exact h
    | some n => exact h.note hn
  | stall u => exact h.hubStall u

theorem Inv.run {s : Sys} (h : Inv s) (max : Nat) (evs : List Ev) : Inv (run max s evs) := by
  induction evs generalizing s with
  | nil => exact h
  | cons e r ih => exact ih (h.step max e)

end IPP.Life
