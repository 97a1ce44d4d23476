import Verif.Connect.Lemmas

/-! # C78: everybody connects to the service it wants -/
namespace IPP.Conn

/-! ## Specification -/

/-- On machine `m` (`here`: it is the controller's) the host name `h` leads to the controller, which gave `location` as its name. -/
def Leads (m : Machine) (here : Prop) (location h : Str) : Prop := (here ∧ h = m.localhost) ∨ h = location ∨ h = m.resolve location

/-- A connection from machine `m` to `url` ends at a socket bound to `bound`: the same address, or the socket was bound to all interfaces and the url has its port on the controller's machine. -/
def Reaches (m : Machine) (here : Prop) (location url bound : Str) : Prop :=
  url = bound ∨ ∃ proto ip h port, bound = joinScheme proto (ip ++ ':' :: Ports.showNat port) ∧ (ip = zeros ∨ ip = star) ∧
    url = joinScheme proto (h ++ ':' :: Ports.showNat port) ∧ Leads m here location h

/-- What a machine knows is right: if it takes the location for its own name or address, then it is the controller's machine; no location is only given there. -/
def Right (m : Machine) (here : Prop) (location : Str) : Prop :=
  (location = [] → here) ∧ (location = m.hostname → here) ∧ (location ∈ m.publicIps → here) ∧ (m.resolve location ∈ m.publicIps → here)

/-- an interface of a transport other than ipc -/
def Plain (interface : Str) : Prop := ∃ proto ip, interface = joinScheme proto ip ∧ ':' ∉ proto ∧ proto ≠ ipc ∧ '/' ∉ ip

/-- every service with its port -/
def Ctl.table (k : Ctl) : List (Svc × Nat) :=
  [(.registration, k.ci.registration), (.heartPing, k.ei.hbPing), (.heartPong, k.ei.hbPong), (.notification, k.ci.notification), (.monitor, k.mon),
   (.iopubEngines, k.ei.iopub), (.iopubClients, k.ci.iopub), (.muxClients, k.ci.mux), (.muxEngines, k.ei.mux), (.controlClients, k.ci.control), (.controlEngines, k.ei.control),
   (.taskClients, k.ci.task), (.taskEngines, k.ei.task), (.broadcastClients, k.ci.broadcast)] ++
  (List.range k.ei.broadcast.length).map (fun i => (.broadcastLeaf i, k.ei.broadcast.getD i 0)) ++ k.inner.map (fun x => (.broadcastInner x.1, x.2))

/-- no port is used twice -/
def Ctl.Distinct (k : Ctl) : Prop := (k.table.map (·.2)).Nodup

/-! ## proofs -/

theorem disambiguate_leads (m : Machine) (here : Prop) (location ip : Str) (h : Right m here location) :
    disambiguateIp m ip location = ip ∨ ((ip = zeros ∨ ip = star) ∧ Leads m here location (disambiguateIp m ip location)) := by
  unfold disambiguateIp
  split
  · rename_i hi
    refine Or.inr ⟨hi, ?_⟩
    split
    · rename_i hl; exact Or.inl ⟨h.1 hl, rfl⟩
    · split
      · split
        · rename_i hl; exact Or.inl ⟨h.2.1 hl, rfl⟩
        · unfold chooseIp
          split
          · rename_i hp; exact Or.inl ⟨h.2.2.2 hp, rfl⟩
          · exact Or.inr (Or.inr rfl)
      · unfold chooseIp
        split
        · rename_i hp; exact Or.inl ⟨h.2.2.1 hp, rfl⟩
        · exact Or.inr (Or.inl rfl)
  · exact Or.inl rfl

theorem construct_plain {interface : Str} (h : Plain interface) (p : Nat) : constructUrl interface p = interface ++ ':' :: Ports.showNat p := by
  obtain ⟨proto, ip, e, h1, h2, h3⟩ := h
  unfold constructUrl
  rw [e, split_join _ _ h1]
  simp [h2]

/-- the url that a peer makes of a port reaches the socket bound to that port of the interface -/
theorem url_reaches {m : Machine} {here : Prop} {location proto ip : Str} (hr : Right m here location) (p : Nat) (hp : ':' ∉ proto) (hx : proto ≠ ipc) (hi : '/' ∉ ip) :
    Reaches m here location (joinScheme proto (disambiguateIp m ip location) ++ ':' :: Ports.showNat p) (constructUrl (joinScheme proto ip) p) := by
  rw [construct_plain ⟨proto, ip, rfl, hp, hx, hi⟩]
  have e : ∀ x : Str, joinScheme proto x ++ ':' :: Ports.showNat p = joinScheme proto (x ++ ':' :: Ports.showNat p) := fun x => by simp [joinScheme]
  rcases disambiguate_leads m here location ip hr with h | ⟨hw, hl⟩
  · left; rw [h]
  · right; exact ⟨proto, ip, _, p, e ip, hw, e _, hl⟩

/-- the same after a second disambiguation -/
theorem url_reaches_again {m : Machine} {here : Prop} {location proto ip : Str} (hr : Right m here location) (p : Nat) (hp : ':' ∉ proto) (hx : proto ≠ ipc) (hi : '/' ∉ ip) :
    Reaches m here location (disambiguateUrl m (joinScheme proto (disambiguateIp m ip location) ++ ':' :: Ports.showNat p) location) (constructUrl (joinScheme proto ip) p) := by
  have e : ∀ x : Str, joinScheme proto x ++ ':' :: Ports.showNat p = joinScheme proto (x ++ ':' :: Ports.showNat p) := fun x => by simp [joinScheme]
  unfold disambiguateUrl
  rw [e]
  rcases splitUrl_join proto (disambiguateIp m ip location) (Ports.showNat p) hp (show_nocolon p) with h | h
  · rw [h]
    simp only
    rcases disambiguate_leads m here location (disambiguateIp m ip location) hr with h2 | ⟨hw, hl⟩
    · rw [h2, ← e]; exact url_reaches hr p hp hx hi
    · rw [construct_plain ⟨proto, ip, rfl, hp, hx, hi⟩, e]
      rcases disambiguate_leads m here location ip hr with h3 | ⟨hw3, _⟩
      · rw [h3] at hw hl ⊢
        exact Or.inr ⟨proto, ip, _, p, rfl, hw, rfl, hl⟩
      · exact Or.inr ⟨proto, ip, _, p, rfl, hw3, rfl, hl⟩
  · rw [h]
    simp only
    rw [← e]; exact url_reaches hr p hp hx hi

/-! ### ports identify services -/

/-- the string ends with a character that is not a digit and the port -/
def EndsWith (u : Str) (p : Nat) : Prop := ∃ a c, u = a ++ c :: Ports.showNat p ∧ isDigit c = false

theorem ends_inj {u : Str} {p q : Nat} (h1 : EndsWith u p) (h2 : EndsWith u q) : p = q := by
  obtain ⟨a, c, e, hc⟩ := h1
  obtain ⟨b, d, e2, hd⟩ := h2
  rw [e] at e2
  exact show_inj (tail_digits e2 (show_digits p) (show_digits q) hc hd).2.2

theorem construct_ends (i : Str) (p : Nat) : EndsWith (constructUrl i p) p := by
  unfold constructUrl
  refine ⟨i, _, rfl, ?_⟩
  split <;> decide

theorem join_ends (proto h : Str) (p : Nat) : EndsWith (joinScheme proto (h ++ ':' :: Ports.showNat p)) p := ⟨proto ++ schemeSep ++ h, ':', by simp [joinScheme], by decide⟩

theorem reaches_port {m : Machine} {here : Prop} {location u b : Str} {p q : Nat} (h : Reaches m here location u b) (h1 : EndsWith u p) (h2 : EndsWith b q) : p = q := by
  rcases h with h | ⟨proto, ip, hh, port, e, _, e2, _⟩
  · rw [h] at h1; exact ends_inj h1 h2
  · have a := ends_inj h1 (by rw [e2]; exact join_ends _ _ _)
    have b := ends_inj h2 (by rw [e]; exact join_ends _ _ _)
    rw [a, b]

theorem leaf_sockets {k : Ctl} {l : List (Svc × Str)} (h : k.leafSockets = some l) :
    (∀ i < 2 ^ k.cfg.depth, ∃ p, k.ei.broadcast[i]? = some p ∧ (Svc.broadcastLeaf i, constructUrl k.ei.interface p) ∈ l) ∧
    ∀ x ∈ l, ∃ i < 2 ^ k.cfg.depth, ∃ p, k.ei.broadcast[i]? = some p ∧ x = (Svc.broadcastLeaf i, constructUrl k.ei.interface p) := by
  unfold Ctl.leafSockets at h
  have hc := Tree.leaves_cover k.cfg.depth
  have hm : ∀ (ids : List (List Bool)) (l : List (Svc × Str)),
      ids.mapM (fun id => (k.ei.broadcast[Tree.val id]?).map (fun p => (Svc.broadcastLeaf (Tree.val id), constructUrl k.ei.interface p))) = some l →
      (∀ i ∈ ids.map Tree.val, ∃ p, k.ei.broadcast[i]? = some p ∧ (Svc.broadcastLeaf i, constructUrl k.ei.interface p) ∈ l) ∧
      ∀ x ∈ l, ∃ i ∈ ids.map Tree.val, ∃ p, k.ei.broadcast[i]? = some p ∧ x = (Svc.broadcastLeaf i, constructUrl k.ei.interface p) := by
    intro ids
    induction ids with
    | nil => intro l h; simp at h; subst h; simp
    | cons id ids ih =>
      intro l h
      rw [List.mapM_cons] at h
      cases e : k.ei.broadcast[Tree.val id]? with
      | none => rw [e] at h; simp at h
      | some p =>
        rw [e] at h
        simp only [Option.map_some, Option.bind_eq_bind, Option.bind_some, Option.pure_def] at h
        cases e2 : ids.mapM (fun id => (k.ei.broadcast[Tree.val id]?).map (fun p => (Svc.broadcastLeaf (Tree.val id), constructUrl k.ei.interface p))) with
        | none => rw [e2] at h; simp at h
        | some l' =>
          rw [e2] at h
          simp only [Option.bind_some, Option.some.injEq] at h
          obtain ⟨i1, i2⟩ := ih l' e2
          subst h
          constructor
          · intro i hi
            rw [List.map_cons, List.mem_cons] at hi
            rcases hi with rfl | hi
            · exact ⟨p, e, by simp⟩
            · obtain ⟨q, hq, hm⟩ := i1 i hi
              exact ⟨q, hq, List.mem_cons_of_mem _ hm⟩
          · intro x hx
            rw [List.mem_cons] at hx
            rcases hx with rfl | hx
            · exact ⟨Tree.val id, by simp, p, e, rfl⟩
            · obtain ⟨i, hi, q, hq, ex⟩ := i2 x hx
              exact ⟨i, by rw [List.map_cons]; exact List.mem_cons_of_mem _ hi, q, hq, ex⟩
  obtain ⟨a, b⟩ := hm _ _ h
  rw [hc] at a b
  exact ⟨fun i hi => a i (List.mem_range.2 hi), fun x hx => by
    obtain ⟨i, hi, r⟩ := b x hx
    exact ⟨i, List.mem_range.1 hi, r⟩⟩

theorem listens_ports {k : Ctl} {L : List (Svc × Str)} (hL : k.listens = some L) (hreg : k.ei.registration = k.ci.registration) :
    ∀ y ∈ L, ∃ p, (y.1, p) ∈ k.table ∧ EndsWith y.2 p := by
  unfold Ctl.listens at hL
  cases e : k.leafSockets with
  | none => rw [e] at hL; simp at hL
  | some lv =>
    rw [e] at hL
    simp only [Option.map_some, Option.some.injEq] at hL
    subst hL
    obtain ⟨_, hl⟩ := leaf_sockets e
    intro y hy
    rw [List.mem_append, List.mem_append, List.mem_append, List.mem_append, List.mem_append, List.mem_append] at hy
    rcases hy with (((((hy | hy) | hy) | hy) | hy) | hy) | hy
    · rw [List.mem_singleton] at hy; subst hy
      exact ⟨k.ci.registration, by simp [Ctl.table], construct_ends _ _⟩
    · split at hy
      · rw [List.mem_singleton] at hy; subst hy
        exact ⟨k.ci.registration, by simp [Ctl.table], by rw [hreg]; exact construct_ends _ _⟩
      · simp at hy
    · simp only [List.mem_cons, List.mem_nil_iff, or_false] at hy
      rcases hy with rfl | rfl | rfl | rfl | rfl | rfl | rfl | rfl | rfl | rfl
      all_goals first
        | exact ⟨_, by simp [Ctl.table], construct_ends _ _⟩
        | exact ⟨k.mon, by simp [Ctl.table], join_ends _ _ _⟩
    · split at hy
      · simp at hy
      · simp only [List.mem_cons, List.mem_nil_iff, or_false] at hy
        rcases hy with rfl | rfl
        all_goals exact ⟨_, by simp [Ctl.table], construct_ends _ _⟩
    · rw [List.mem_singleton] at hy; subst hy
      exact ⟨_, by simp [Ctl.table], construct_ends _ _⟩
    · obtain ⟨i, hi, p, hp, rfl⟩ := hl y hy
      refine ⟨p, ?_, construct_ends _ _⟩
      obtain ⟨hlt, hg⟩ := List.getElem?_eq_some_iff.1 hp
      unfold Ctl.table
      rw [List.mem_append, List.mem_append]
      refine Or.inl (Or.inr (List.mem_map.2 ⟨i, List.mem_range.2 hlt, ?_⟩))
      simp [List.getD, hp]
    · obtain ⟨x, hx, rfl⟩ := List.mem_map.1 hy
      refine ⟨x.2, ?_, construct_ends _ _⟩
      unfold Ctl.table
      rw [List.mem_append]
      exact Or.inr (List.mem_map.2 ⟨x, hx, rfl⟩)

theorem nodup_snd {l : List (Svc × Nat)} (h : (l.map (·.2)).Nodup) {a b : Svc} {p : Nat} (ha : (a, p) ∈ l) (hb : (b, p) ∈ l) : a = b := by
  induction l with
  | nil => simp at ha
  | cons x l ih =>
    rw [List.map_cons, List.nodup_cons] at h
    rw [List.mem_cons] at ha hb
    rcases ha with rfl | ha <;> rcases hb with hb | hb
    · exact (congrArg Prod.fst hb).symm
    · exact absurd (List.mem_map.2 ⟨_, hb, rfl⟩) h.1
    · subst hb; exact absurd (List.mem_map.2 ⟨_, ha, rfl⟩) h.1
    · exact ih h.2 ha hb

/-! ## clients -/

/-- what a peer wants of its connections: each is to a socket of the service meant, and to no socket of another service -/
def Served (m : Machine) (here : Prop) (location : Str) (conns : List (Svc × Str)) (L : List (Svc × Str)) : Prop :=
  ∀ x ∈ conns, (∃ y ∈ L, y.1 = x.1 ∧ Reaches m here location x.2 y.2) ∧ ∀ y ∈ L, Reaches m here location x.2 y.2 → y.1 = x.1

theorem mem_listens {k : Ctl} {L : List (Svc × Str)} (hL : k.listens = some L) (hs : k.cfg.scheme ≠ noneScheme) :
    (Svc.registration, constructUrl k.ci.interface k.ci.registration) ∈ L ∧
    (k.cfg.clientIp ≠ k.cfg.engineIp → (Svc.registration, constructUrl k.ei.interface k.ei.registration) ∈ L) ∧
    (∀ x ∈ [(Svc.heartPing, constructUrl k.ei.interface k.ei.hbPing), (.heartPong, constructUrl k.ei.interface k.ei.hbPong),
      (.notification, constructUrl k.ci.interface k.ci.notification), (.iopubEngines, constructUrl k.ei.interface k.ei.iopub), (.iopubClients, constructUrl k.ci.interface k.ci.iopub),
      (.muxClients, constructUrl k.ci.interface k.ci.mux), (.muxEngines, constructUrl k.ei.interface k.ei.mux),
      (.controlClients, constructUrl k.ci.interface k.ci.control), (.controlEngines, constructUrl k.ei.interface k.ei.control),
      (.taskClients, constructUrl k.ci.interface k.ci.task), (.taskEngines, constructUrl k.ei.interface k.ei.task),
      (.broadcastClients, constructUrl k.ci.interface k.ci.broadcast)], x ∈ L) ∧
    ∀ i < 2 ^ k.cfg.depth, ∃ p, k.ei.broadcast[i]? = some p ∧ (Svc.broadcastLeaf i, constructUrl k.ei.interface p) ∈ L := by
  unfold Ctl.listens at hL
  cases e : k.leafSockets with
  | none => rw [e] at hL; simp at hL
  | some lv =>
    rw [e] at hL
    simp only [Option.map_some, Option.some.injEq, hs, if_false] at hL
    subst hL
    obtain ⟨hl, _⟩ := leaf_sockets e
    refine ⟨by simp, fun h => by simp [h], ?_, ?_⟩
    · intro x hx
      simp only [List.mem_cons, List.mem_nil_iff, or_false] at hx
      rcases hx with rfl | rfl | rfl | rfl | rfl | rfl | rfl | rfl | rfl | rfl | rfl | rfl <;> simp
    · intro i hi
      obtain ⟨p, hp, hm⟩ := hl i hi
      exact ⟨p, hp, by simp [hm]⟩

/-- C78: every connection that a client makes ends at the socket of the controller that it is meant for, and at no other: for every configuration with a transport other than ipc, every machine. (What is missing: ipc, see the violation.) -/
theorem client_served_partial (k : Ctl) (L : List (Svc × Str)) (hL : k.listens = some L) (hs : k.cfg.scheme ≠ noneScheme) (hreg : k.ei.registration = k.ci.registration) (hd : k.Distinct)
    (hp : Plain k.ci.interface) (f : CFile) (hf : f.info = k.ci) (m : Machine) (here : Prop) (hr : Right m here f.base.location) :
    ∃ conns, clientConnects m f = some conns ∧ conns.map (·.1) = [.registration, .muxClients, .taskClients, .broadcastClients, .notification, .controlClients, .iopubClients] ∧
      Served m here f.base.location conns L := by
  obtain ⟨proto, ip, ei, h1, h2, h3⟩ := hp
  have hi : clientInterface m f = some (joinScheme proto (disambiguateIp m ip f.base.location)) := by
    unfold clientInterface
    rw [hf, ei, split_join _ _ h1, split_noslash _ h3]
  refine ⟨_, by unfold clientConnects; rw [hi]; rfl, by rfl, ?_⟩
  obtain ⟨m1, _, m2, _⟩ := mem_listens hL hs
  have key : ∀ (s : Svc) (p : Nat), (s, constructUrl k.ci.interface p) ∈ L → (s, p) ∈ k.table →
      (∃ y ∈ L, y.1 = s ∧ Reaches m here f.base.location (joinScheme proto (disambiguateIp m ip f.base.location) ++ ':' :: Ports.showNat p) y.2) ∧
      ∀ y ∈ L, Reaches m here f.base.location (joinScheme proto (disambiguateIp m ip f.base.location) ++ ':' :: Ports.showNat p) y.2 → y.1 = s := by
    intro s p hm ht
    refine ⟨⟨_, hm, rfl, by rw [ei]; exact url_reaches hr p h1 h2 h3⟩, ?_⟩
    intro y hy hry
    obtain ⟨q, hq, eq⟩ := listens_ports hL hreg y hy
    have := reaches_port hry ⟨_, ':', rfl, by decide⟩ eq
    subst this
    exact nodup_snd hd hq ht
  intro x hx
  simp only [hf] at hx
  simp only [List.mem_cons, List.mem_nil_iff, or_false] at hx
  rcases hx with rfl | rfl | rfl | rfl | rfl | rfl | rfl
  · exact key _ _ m1 (by simp [Ctl.table])
  all_goals exact key _ _ (m2 _ (by simp)) (by simp [Ctl.table])

/-! ## engines -/

/-- C78: the same for the connections of an engine, whatever its id; the broadcast connection is to leaf `id % 2 ^ depth`. (What is missing: ipc; the same ip for engines and clients with different transports.) -/
theorem engine_served_partial (k : Ctl) (L : List (Svc × Str)) (hL : k.listens = some L) (hs : k.cfg.scheme ≠ noneScheme) (hreg : k.ei.registration = k.ci.registration) (hd : k.Distinct)
    (hp : Plain k.ei.interface) (hsame : k.cfg.clientIp = k.cfg.engineIp → k.ci.interface = k.ei.interface) (hlen : k.ei.broadcast.length = 2 ^ k.cfg.depth)
    (f : EFile) (hf : f.info = k.ei) (m : Machine) (here : Prop) (hr : Right m here f.base.location) (id : Nat) :
    ∃ conns, engineConnects m f id = some conns ∧
      conns.map (·.1) = [.registration, .muxEngines, .taskEngines, .broadcastLeaf (id % 2 ^ k.cfg.depth), .controlEngines, .iopubEngines, .heartPing, .heartPong] ∧
      Served m here f.base.location conns L := by
  obtain ⟨proto, ip, ei, h1, h2, h3⟩ := hp
  have hi : engineInterface m f = some (joinScheme proto (disambiguateIp m ip f.base.location)) := by
    unfold engineInterface
    rw [hf, ei, split_join _ _ h1, split_noslash _ h3]
  obtain ⟨m1, m1', m2, m3⟩ := mem_listens hL hs
  have hlt : id % 2 ^ k.cfg.depth < 2 ^ k.cfg.depth := Nat.mod_lt _ (Nat.two_pow_pos _)
  obtain ⟨b, hb, hbm⟩ := m3 _ hlt
  have hc : engineConnects m f id = some
      [(.registration, disambiguateUrl m (joinScheme proto (disambiguateIp m ip f.base.location) ++ ':' :: Ports.showNat k.ei.registration) f.base.location),
       (.muxEngines, disambiguateUrl m (joinScheme proto (disambiguateIp m ip f.base.location) ++ ':' :: Ports.showNat k.ei.mux) f.base.location),
       (.taskEngines, disambiguateUrl m (joinScheme proto (disambiguateIp m ip f.base.location) ++ ':' :: Ports.showNat k.ei.task) f.base.location),
       (.broadcastLeaf (id % 2 ^ k.cfg.depth), disambiguateUrl m (joinScheme proto (disambiguateIp m ip f.base.location) ++ ':' :: Ports.showNat b) f.base.location),
       (.controlEngines, disambiguateUrl m (joinScheme proto (disambiguateIp m ip f.base.location) ++ ':' :: Ports.showNat k.ei.control) f.base.location),
       (.iopubEngines, disambiguateUrl m (joinScheme proto (disambiguateIp m ip f.base.location) ++ ':' :: Ports.showNat k.ei.iopub) f.base.location),
       (.heartPing, disambiguateUrl m (joinScheme proto (disambiguateIp m ip f.base.location) ++ ':' :: Ports.showNat k.ei.hbPing) f.base.location),
       (.heartPong, disambiguateUrl m (joinScheme proto (disambiguateIp m ip f.base.location) ++ ':' :: Ports.showNat k.ei.hbPong) f.base.location)] := by
    unfold engineConnects
    rw [hi]
    simp only [hf, hlen, hb]
  refine ⟨_, hc, rfl, ?_⟩
  have key : ∀ (s : Svc) (p : Nat), (s, constructUrl k.ei.interface p) ∈ L → (s, p) ∈ k.table →
      (∃ y ∈ L, y.1 = s ∧ Reaches m here f.base.location (disambiguateUrl m (joinScheme proto (disambiguateIp m ip f.base.location) ++ ':' :: Ports.showNat p) f.base.location) y.2) ∧
      ∀ y ∈ L, Reaches m here f.base.location (disambiguateUrl m (joinScheme proto (disambiguateIp m ip f.base.location) ++ ':' :: Ports.showNat p) f.base.location) y.2 → y.1 = s := by
    intro s p hm ht
    have hre := url_reaches_again (m := m) (here := here) hr p h1 h2 h3
    rw [← ei] at hre
    refine ⟨⟨_, hm, rfl, hre⟩, ?_⟩
    intro y hy hry
    obtain ⟨q, hq, eq⟩ := listens_ports hL hreg y hy
    have hu : EndsWith (disambiguateUrl m (joinScheme proto (disambiguateIp m ip f.base.location) ++ ':' :: Ports.showNat p) f.base.location) p := by
      rw [show joinScheme proto (disambiguateIp m ip f.base.location) ++ ':' :: Ports.showNat p = joinScheme proto (disambiguateIp m ip f.base.location ++ ':' :: Ports.showNat p) by simp [joinScheme]]
      unfold disambiguateUrl
      rcases splitUrl_join proto (disambiguateIp m ip f.base.location) (Ports.showNat p) h1 (show_nocolon p) with h | h <;> rw [h] <;> exact join_ends _ _ _
    have := reaches_port hry hu eq
    subst this
    exact nodup_snd hd hq ht
  intro x hx
  simp only [List.mem_cons, List.mem_nil_iff, or_false] at hx
  rcases hx with rfl | rfl | rfl | rfl | rfl | rfl | rfl | rfl
  · refine key _ _ ?_ (by simp [Ctl.table, hreg])
    by_cases hc : k.cfg.clientIp = k.cfg.engineIp
    · rw [← hsame hc, hreg]; exact m1
    · exact m1' hc
  · exact key _ _ (m2 _ (by simp)) (by simp [Ctl.table])
  · exact key _ _ (m2 _ (by simp)) (by simp [Ctl.table])
  · refine key _ _ hbm ?_
    unfold Ctl.table
    rw [List.mem_append, List.mem_append]
    refine Or.inl (Or.inr (List.mem_map.2 ⟨_, List.mem_range.2 (by rw [hlen]; exact hlt), ?_⟩))
    simp [List.getD, hb]
  all_goals exact key _ _ (m2 _ (by simp)) (by simp [Ctl.table])

end IPP.Conn
