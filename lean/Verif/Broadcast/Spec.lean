import Verif.Broadcast.Model
/-!
# What a broadcast must do, said without the tree
-/
namespace IPP.Broadcast

/-- Every target engine gets the message exactly once (on the socket it listens to) and nobody else gets anything. `id`/`uuid` of an
engine: `t`; `delivered` are (socket, identity) pairs; an engine listens to socket `id % sockets`. -/
def ExactlyOnce (sockets : Nat) (targets : List Target) (delivered : List (Nat × Uuid)) : Prop :=
  (∀ t ∈ targets, delivered.count (t.id % sockets, t.uuid) = 1) ∧
  (∀ x ∈ delivered, ∃ t ∈ targets, x = (t.id % sockets, t.uuid))

/-- An admissible history of a broadcast: engines reply at most once each, from the socket they listen to, with their own answer. In between
schedulers may handle forwarded replies in any order, any number of times. `S`: the engines that replied already. -/
def Admissible (D : Nat) (targets : List Target) (ans : Uuid → List Buf) : List Uuid → List Ev → Prop
  | _, [] => True
  | S, .deliver _ _ :: evs => Admissible D targets ans S evs
  | S, .reply v u bufs _ :: evs =>
    v.length = D ∧ (∀ b ∈ v, b < 2) ∧ (∃ t ∈ targets, t.uuid = u ∧ leafIdx v = t.id % 2 ^ D) ∧ bufs = ans u ∧ u ∉ S ∧
      Admissible D targets ans (u :: S) evs

/-- the engine has replied -/
def Replied (evs : List Ev) (u : Uuid) : Prop := ∃ v bufs ok, Ev.reply v u bufs ok ∈ evs

/-- The order in which a coalesced result lists the targets: by `id mod 2^depth`, then in the order requested. -/
def treeOrder (D : Nat) (targets : List Target) : List Target :=
  (List.range (2 ^ D)).flatMap (fun l => targets.filter (fun t => t.id % 2 ^ D = l))

end IPP.Broadcast
