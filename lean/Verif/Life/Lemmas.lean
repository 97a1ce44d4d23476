import Verif.Life.Model
import Verif.Hub.RegProps
import Verif.Heart.Props
/-!
# Lives of engines: lemmas
-/
namespace IPP.Life
open Hub (Uuid Eid Reg delKey getKey)

@[simp] theorem upd_same {α : Type} (f : Uuid → α) (u : Uuid) (v : α) : upd f u v u = v := by simp [upd]
theorem upd_other {α : Type} (f : Uuid → α) {u x : Uuid} (v : α) (h : x ≠ u) : upd f u v x = f x := by simp [upd, h]

/-! ## what an event does to the hub's tables -/

theorem uuid_once {r : Reg} (h : Hub.Inv r) {e e' : Eid} {u : Uuid} (h1 : (e, u) ∈ r.engines) (h2 : (e', u) ∈ r.engines) : e = e' := by
  have hu := (List.nodup_append.1 h.uuids).1
  have g1 := Hub.getKey_of_mem (d := r.engines.map Hub.flip) (by rw [Hub.flip_fst]; exact hu) (List.mem_map.2 ⟨_, h1, rfl⟩)
  have g2 := Hub.getKey_of_mem (d := r.engines.map Hub.flip) (by rw [Hub.flip_fst]; exact hu) (List.mem_map.2 ⟨_, h2, rfl⟩)
  simp only [Hub.flip] at g1 g2
  rw [g1] at g2; exact Option.some.inj g2

theorem not_both {r : Reg} (h : Hub.Inv r) {e e' : Eid} {u : Uuid} (h1 : (e, u) ∈ r.engines) (h2 : (u, e') ∈ r.incoming) : False := by
  have hu := (List.nodup_append.1 h.uuids).2.2
  exact hu u (List.mem_map.2 ⟨_, h1, rfl⟩) u (List.mem_map.2 ⟨_, h2, rfl⟩) rfl

theorem incoming_once {r : Reg} (h : Hub.Inv r) {e e' : Eid} {u : Uuid} (h1 : (u, e) ∈ r.incoming) (h2 : (u, e') ∈ r.incoming) : e = e' := by
  have hu := (List.nodup_append.1 h.uuids).2.1
  have g1 := Hub.getKey_of_mem hu h1
  have g2 := Hub.getKey_of_mem hu h2
  rw [g1] at g2; exact Option.some.inj g2

theorem register_eff {r : Reg} (h : Hub.Inv r) (u : Uuid) (q : Option Eid) :
    (Hub.register r u q).1.engines = r.engines ∧
    ((∃ id a, (Hub.register r u q).2 = [.granted u id a] ∧ (Hub.register r u q).1.incoming = r.incoming ++ [(u, id)] ∧ (∀ e, (e, u) ∉ r.engines)) ∨
     ((Hub.register r u q).2 = [.refused u] ∧ (Hub.register r u q).1.incoming = r.incoming)) := by
  unfold Hub.register
  simp only
  split
  · exact ⟨rfl, Or.inr ⟨rfl, rfl⟩⟩
  · rename_i h1
    split
    · exact ⟨rfl, Or.inr ⟨rfl, rfl⟩⟩
    · rename_i h2
      refine ⟨rfl, Or.inl ⟨_, _, rfl, Hub.setKey_fresh h2 _, ?_⟩⟩
      rw [h.ident, Hub.flip_fst] at h1
      intro e he
      exact h1 (List.mem_map.2 ⟨_, he, rfl⟩)

theorem newHeart_eff {r : Reg} (h : Hub.Inv r) (u : Uuid) :
    (∃ e, (u, e) ∈ r.incoming ∧ (Hub.step r (.newHeart u)).1.engines = r.engines ++ [(e, u)] ∧ (Hub.step r (.newHeart u)).1.incoming = delKey r.incoming u ∧
      (Hub.step r (.newHeart u)).2 = [.registered u e]) ∨
    (Hub.step r (.newHeart u) = (r, []) ∧ ∀ e, (u, e) ∉ r.incoming) := by
  unfold Hub.step
  simp only
  split
  · rename_i hm
    cases hg : getKey r.incoming u with
    | none => exact absurd hm (Hub.getKey_none hg)
    | some e =>
      rw [Hub.finish_some h hg]
      exact Or.inl ⟨e, Hub.getKey_some hg, rfl, rfl, rfl⟩
  · rename_i hm
    exact Or.inr ⟨rfl, fun e he => hm (List.mem_map.2 ⟨_, he, rfl⟩)⟩

theorem unregister_eff {r : Reg} (h : Hub.Inv r) (e : Eid) :
    (∃ u, (e, u) ∈ r.engines ∧ (Hub.unregister r e).1.engines = r.engines.filter (fun x => x ≠ (e, u)) ∧ (Hub.unregister r e).1.incoming = r.incoming ∧
      (Hub.unregister r e).2 = [.unregistered u e]) ∨
    ((∀ u, (e, u) ∉ r.engines) ∧ (Hub.unregister r e).1.engines = r.engines ∧ (∀ x, x ∈ (Hub.unregister r e).1.incoming ↔ x ∈ r.incoming ∧ x.2 ≠ e) ∧ (Hub.unregister r e).2 = []) := by
  unfold Hub.unregister
  cases hg : getKey r.engines e with
  | some u =>
    have hm := Hub.getKey_some hg
    exact Or.inl ⟨u, hm, by simp only [Hub.save]; rw [Hub.filter_eq_delKey h hm], rfl, rfl⟩
  | none =>
    refine Or.inr ⟨fun u hu => Hub.getKey_none hg (List.mem_map.2 ⟨_, hu, rfl⟩), ?_⟩
    simp only
    split
    · rename_i hf
      refine ⟨rfl, fun x => ⟨fun hx => ⟨hx, ?_⟩, fun hx => hx.1⟩, rfl⟩
      have := List.find?_eq_none.1 hf x hx
      simpa using this
    · rename_i u e' hf
      refine ⟨rfl, fun x => ?_, rfl⟩
      have hm := List.mem_of_find?_eq_some hf
      have hp := List.find?_some hf
      simp only [decide_eq_true_eq] at hp
      subst hp
      rw [Hub.mem_delKey]
      constructor
      · rintro ⟨hx, hne⟩
        refine ⟨hx, fun he => hne ?_⟩
        have hi := (List.nodup_append.1 h.ids).2.1
        have hfl : ((r.incoming.map fun x => (x.2, x.1)).map Prod.fst).Nodup := by simpa [Function.comp_def] using hi
        have g1 := Hub.getKey_of_mem hfl (List.mem_map.2 ⟨_, hx, rfl⟩)
        have g2 := Hub.getKey_of_mem hfl (List.mem_map.2 ⟨_, hm, rfl⟩)
        simp only at g1 g2
        rw [he] at g1
        rw [g1] at g2; exact Option.some.inj g2
      · rintro ⟨hx, hne⟩
        refine ⟨hx, fun he => hne ?_⟩
        obtain ⟨x1, x2⟩ := x
        simp only at he
        subst he
        exact incoming_once h hx hm

theorem stopped_eff {r : Reg} (h : Hub.Inv r) (u : Uuid) :
    (∃ e, (e, u) ∈ r.engines ∧ (Hub.step r (.stoppedHeart u)).1.engines = r.engines.filter (fun x => x ≠ (e, u)) ∧ (Hub.step r (.stoppedHeart u)).1.incoming = r.incoming ∧
      (Hub.step r (.stoppedHeart u)).2 = [.unregistered u e]) ∨
    (Hub.step r (.stoppedHeart u) = (r, []) ∧ ∀ e, (e, u) ∉ r.engines) := by
  unfold Hub.step
  simp only
  have hf : ((r.engines.map Hub.flip).map Prod.fst).Nodup := by rw [Hub.flip_fst]; exact (List.nodup_append.1 h.uuids).1
  cases hg : getKey r.hearts u with
  | none =>
    refine Or.inr ⟨rfl, fun e he => ?_⟩
    rw [h.hearts] at hg
    exact Hub.getKey_none hg (List.mem_map.2 ⟨_, List.mem_map.2 ⟨_, he, rfl⟩, rfl⟩)
  | some e =>
    have hm : (e, u) ∈ r.engines := by
      have := Hub.getKey_some hg
      rw [h.hearts] at this
      obtain ⟨x, hx, he⟩ := List.mem_map.1 this
      simp only [Hub.flip, Prod.mk.injEq] at he
      obtain ⟨rfl, rfl⟩ := he
      exact hx
    rcases unregister_eff h e with ⟨u', hu', h1, h2, h3⟩ | ⟨hn, -⟩
    · have : u' = u := by
        have hi := (List.nodup_append.1 h.ids).1
        have g1 := Hub.getKey_of_mem hi hu'
        have g2 := Hub.getKey_of_mem hi hm
        rw [g1] at g2; exact Option.some.inj g2
      subst this
      exact Or.inl ⟨e, hm, h1, h2, h3⟩
    · exact absurd hm (hn u)

/-! ## what an event does to the heart monitor -/

theorem pong_resp (s : Heart.State) (h t x : Nat) : x ∈ (Heart.handlePong s h t).responses → x ∈ s.responses ∨ x = h := by
  unfold Heart.handlePong
  split
  · intro hx; rcases Heart.mem_add.1 hx with h1 | h1
    · exact Or.inr h1
    · exact Or.inl h1
  · split
    · intro hx; rcases Heart.mem_add.1 hx with h1 | h1
      · exact Or.inr h1
      · exact Or.inl h1
    · exact Or.inl

theorem pong_rest (s : Heart.State) (h t : Nat) : (Heart.handlePong s h t).notes = s.notes ∧ (Heart.handlePong s h t).hearts = s.hearts ∧ (Heart.handlePong s h t).onProbation = s.onProbation ∧
    (Heart.handlePong s h t).lifetime = s.lifetime := by
  unfold Heart.handlePong
  split
  · exact ⟨rfl, rfl, rfl, rfl⟩
  · split <;> exact ⟨rfl, rfl, rfl, rfl⟩

theorem beat_resp (max : Nat) (s : Heart.State) (dt : Nat) : (Heart.beat max s dt).responses = [] := rfl

end IPP.Life
