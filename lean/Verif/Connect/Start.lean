import Verif.Connect.Props
import Verif.Broadcast.Props

/-! # C78: starting, stopping and restarting a controller -/
namespace IPP.Conn

/-- the controller after `setup` on files `f` -/
abbrev Started (c : Cfg) (f : Files) (es cs is : List Nat) (k : Ctl) (w : Bool) : Prop := setup c f es cs is = some (k, w)

/-- the files once the start is complete -/
def written (f : Files) (k : Ctl) (w : Bool) : Files := (saving f k w).getLastD f

theorem started_cfg {c f es cs is k w} (h : Started c f es cs is k w) : k.cfg = c := by
  unfold Started setup at h
  split at h
  · cases e : load f with
    | fatal => rw [e] at h; simp at h
    | refused a b => rw [e] at h; simp only [Option.some.injEq, Prod.mk.injEq] at h; rw [← h.1]
    | loaded a b => rw [e] at h; simp only [Option.some.injEq, Prod.mk.injEq] at h; rw [← h.1]
  · simp only [Option.some.injEq, Prod.mk.injEq] at h; rw [← h.1]

theorem started_cases {c f es cs is k w} (h : Started c f es cs is k w) :
    (w = true ∧ k.ei = buildEngine c es ∧ k.ci = buildClient c (buildEngine c es).registration cs ∧ k.inner = (Tree.reserved c.depth).zip is ∧ k.mon = is.getD (Tree.reserved c.depth).length 0 ∧
      (c.reuse = false → k.base = c.base) ∧ k.base.pack = c.base.pack ∧ k.base.unpack = c.base.unpack ∧ k.base.signature = c.base.signature ∧ k.base.curve = c.base.curve) ∨
    (w = false ∧ c.reuse = true ∧ ∃ e cl, load f = .loaded e cl ∧ k.ei = e.info ∧ k.ci = cl.info ∧ k.base = { c.base with key := e.base.key, location := e.base.location } ∧
      k.inner = (Tree.reserved c.depth).zip is ∧ k.mon = is.getD (Tree.reserved c.depth).length 0) := by
  unfold Started setup at h
  split at h
  · rename_i hr
    cases e : load f with
    | fatal => rw [e] at h; simp at h
    | refused a b =>
      rw [e] at h; simp only [Option.some.injEq, Prod.mk.injEq] at h
      obtain ⟨h, hw⟩ := h; subst h; subst hw
      exact Or.inl ⟨rfl, rfl, rfl, rfl, rfl, (fun hn => by rw [hr] at hn; cases hn), rfl, rfl, rfl, rfl⟩
    | loaded a b =>
      rw [e] at h; simp only [Option.some.injEq, Prod.mk.injEq] at h
      obtain ⟨h, hw⟩ := h; subst h; subst hw
      exact Or.inr ⟨rfl, hr, a, b, rfl, rfl, rfl, rfl, rfl, rfl⟩
  · simp only [Option.some.injEq, Prod.mk.injEq] at h
    obtain ⟨h, hw⟩ := h; subst h; subst hw
    exact Or.inl ⟨rfl, rfl, rfl, rfl, rfl, fun _ => rfl, rfl, rfl, rfl, rfl⟩

theorem load_loaded {f : Files} {e : EFile} {c : CFile} (h : load f = .loaded e c) :
    f.engine = .ok e ∧ f.client = .ok c ∧ c.base.key = e.base.key ∧ c.info.registration = e.info.registration ∧ c.base.pack = e.base.pack ∧ c.base.unpack = e.base.unpack ∧ c.base.signature = e.base.signature := by
  unfold load at h
  cases e1 : f.engine with
  | absent => rw [e1] at h; simp at h
  | broken => rw [e1] at h; simp at h
  | ok e' =>
    rw [e1] at h
    cases e2 : f.client with
    | absent => rw [e2] at h; simp at h
    | broken => rw [e2] at h; simp at h
    | ok c' =>
      rw [e2] at h
      simp only at h
      split at h
      · rename_i hc
        simp only [Load.loaded.injEq] at h
        obtain ⟨rfl, rfl⟩ := h
        exact ⟨rfl, rfl, hc⟩
      · simp at h

theorem load_ok {f : Files} {e : EFile} {c : CFile} (h1 : f.engine = .ok e) (h2 : f.client = .ok c) (h3 : c.base.key = e.base.key) (h4 : c.info.registration = e.info.registration)
    (h5 : c.base.pack = e.base.pack) (h6 : c.base.unpack = e.base.unpack) (h7 : c.base.signature = e.base.signature) : load f = .loaded e c := by
  unfold load
  rw [h1, h2]
  simp [h3, h4, h5, h6, h7]

/-- engines and clients register at the same port -/
theorem started_registration {c f es cs is k w} (h : Started c f es cs is k w) : k.ei.registration = k.ci.registration := by
  rcases started_cases h with ⟨_, h1, h2, _⟩ | ⟨_, _, e, cl, hl, h1, h2, _⟩
  · rw [h1, h2]; rfl
  · rw [h1, h2, (load_loaded hl).2.2.2.1]

theorem inner_ports (r : List (List Bool)) (is : List Nat) (h : is.length = r.length + 1) : ((r.zip is).map (·.2)) ++ [is.getD r.length 0] = is := by
  induction r generalizing is with
  | nil => cases is with
    | nil => simp at h
    | cons x is => cases is with
      | nil => simp
      | cons y is => simp at h
  | cons a r ih => cases is with
    | nil => simp at h
    | cons x is =>
      have := ih is (by simpa using h)
      simp only [List.zip_cons_cons, List.map_cons, List.cons_append, List.length_cons]
      rw [show (x :: is).getD (r.length + 1) 0 = is.getD r.length 0 from rfl, this]

theorem range_getD (l : List Nat) : (List.range l.length).map (fun i => l.getD i 0) = l := by
  apply List.ext_getElem
  · simp
  · intro i h1 h2
    simp [List.getD, h2]

/-- ports that `next_port` gives out at most once (C48) are used at most once -/
theorem fresh_distinct {c f es cs is k} (h : Started c f es cs is k true) (he : es.length = (enginePools c.depth).length) (hc : cs.length = clientPools.length) (hi : is.length = (innerPools c.depth).length)
    (hd : (es ++ cs ++ is).Nodup) : k.Distinct := by
  rcases started_cases h with ⟨_, h1, h2, h3, h4, _⟩ | ⟨hw, _⟩
  rotate_left
  · cases hw
  unfold enginePools at he; unfold clientPools at hc; unfold innerPools at hi
  rw [List.length_replicate] at he hc hi
  match es, he with
  | [], he | [_], he | [_, _], he | [_, _, _], he | [_, _, _, _], he | [_, _, _, _, _], he | [_, _, _, _, _, _], he =>
    have := Nat.two_pow_pos c.depth
    simp only [List.length_cons, List.length_nil] at he
    omega
  | e0 :: e1 :: e2 :: e3 :: e4 :: e5 :: e6 :: rest, he =>
    match cs, hc with
    | [c0, c1, c2, c3, c4, c5], _ =>
      have hrest : rest.length = 2 ^ c.depth := by simp only [List.length_cons] at he; omega
      have hinner := inner_ports (Tree.reserved c.depth) is hi
      unfold Ctl.Distinct
      have hb : (buildEngine c (e0 :: e1 :: e2 :: e3 :: e4 :: e5 :: e6 :: rest)).broadcast = rest := by
        simp only [buildEngine]
        rw [← hrest]
        refine (List.map_congr_left (fun i _ => ?_)).trans (range_getD rest)
        rw [show 7 + i = i + 7 by omega]
        rfl
      have hp : ((k.table).map (·.2)).Perm ((e0 :: e1 :: e2 :: e3 :: e4 :: e5 :: e6 :: rest) ++ [c0, c1, c2, c3, c4, c5] ++ is) := by
        unfold Ctl.table
        rw [h1, h2, h3, h4, List.map_append, List.map_append, List.map_map, List.map_map, hb]
        rw [show ((fun x : Svc × Nat => x.2) ∘ fun i => (Svc.broadcastLeaf i, rest.getD i 0)) = fun i => rest.getD i 0 from rfl, range_getD]
        rw [show ((fun x : Svc × Nat => x.2) ∘ fun x : List Bool × Nat => (Svc.broadcastInner x.1, x.2)) = fun x => x.2 from rfl]
        rw [List.perm_iff_count]
        intro x
        have hx : is.count x = (((Tree.reserved c.depth).zip is).map (·.2)).count x + [is.getD (Tree.reserved c.depth).length 0].count x := by
          rw [← List.count_append, hinner]
        simp only [buildEngine, buildClient, List.map_cons, List.map_nil, List.count_append, List.count_cons, List.count_nil, List.getD_cons_zero, List.getD_cons_succ] at hx ⊢
        omega
      exact hp.nodup_iff.2 hd

theorem leaf_some {k : Ctl} (h : 2 ^ k.cfg.depth ≤ k.ei.broadcast.length) : ∃ L, k.listens = some L := by
  have hm : ∀ ids : List (List Bool), (∀ i ∈ ids.map Tree.val, i < k.ei.broadcast.length) →
      ∃ l, ids.mapM (fun id => (k.ei.broadcast[Tree.val id]?).map (fun p => (Svc.broadcastLeaf (Tree.val id), constructUrl k.ei.interface p))) = some l := by
    intro ids
    induction ids with
    | nil => intro _; exact ⟨[], rfl⟩
    | cons id ids ih =>
      intro hi
      obtain ⟨l, hl⟩ := ih (fun i h => hi i (by rw [List.map_cons]; exact List.mem_cons_of_mem _ h))
      have := hi (Tree.val id) (by simp)
      rw [List.mapM_cons, hl, List.getElem?_eq_getElem this]
      exact ⟨_, rfl⟩
  obtain ⟨l, hl⟩ := hm (Tree.leaves k.cfg.depth [false]) (by
    rw [Tree.leaves_cover]; intro i hi; have := List.mem_range.1 hi; omega)
  exact ⟨_, by unfold Ctl.listens Ctl.leafSockets; rw [hl]; rfl⟩

/-- transports other than ipc, and hosts that are not paths -/
def PlainCfg (c : Cfg) : Prop := ':' ∉ c.engineTransport ∧ c.engineTransport ≠ ipc ∧ '/' ∉ c.engineIp ∧ ':' ∉ c.clientTransport ∧ c.clientTransport ≠ ipc ∧ '/' ∉ c.clientIp ∧
  (c.clientIp = c.engineIp → c.clientTransport = c.engineTransport)

/-- C78: a controller that starts without reusing files serves every client and every engine that reads the files it has written: each of their connections, from any machine, ends at the socket meant and at no other. (What is missing: ipc, one ip with two transports.) -/
theorem fresh_start_serves_partial (c : Cfg) (f : Files) (es cs is : List Nat) (k : Ctl) (h : Started c f es cs is k true)
    (he : es.length = (enginePools c.depth).length) (hc : cs.length = clientPools.length) (hi : is.length = (innerPools c.depth).length) (hd : (es ++ cs ++ is).Nodup)
    (hp : PlainCfg c) (hs : c.scheme ≠ noneScheme) :
    ∃ L ef cf, k.listens = some L ∧ written f k true = ⟨.ok ef, .ok cf⟩ ∧ ef.base = k.base ∧ cf.base = k.base ∧
      ∀ (m : Machine) (here : Prop), Right m here k.base.location →
        (∃ conns, clientConnects m cf = some conns ∧ conns.map (·.1) = [.registration, .muxClients, .taskClients, .broadcastClients, .notification, .controlClients, .iopubClients] ∧ Served m here k.base.location conns L) ∧
        ∀ id, ∃ conns, engineConnects m ef id = some conns ∧
          conns.map (·.1) = [.registration, .muxEngines, .taskEngines, .broadcastLeaf (id % 2 ^ c.depth), .controlEngines, .iopubEngines, .heartPing, .heartPong] ∧ Served m here k.base.location conns L := by
  have hdist := fresh_distinct h he hc hi hd
  have hreg := started_registration h
  have hcfg := started_cfg h
  obtain ⟨p1, p2, p3, p4, p5, p6, p7⟩ := hp
  rcases started_cases h with ⟨_, h1, h2, h3, h4, _⟩ | ⟨hw, _⟩
  rotate_left
  · cases hw
  have hlen : k.ei.broadcast.length = 2 ^ k.cfg.depth := by rw [h1, hcfg]; simp [buildEngine]
  obtain ⟨L, hL⟩ := leaf_some (k := k) (by rw [hlen]; exact Nat.le_refl _)
  have hci : k.ci.interface = joinScheme c.clientTransport c.clientIp := by rw [h2]; rfl
  have hei : k.ei.interface = joinScheme c.engineTransport c.engineIp := by rw [h1]; rfl
  refine ⟨L, ⟨k.ei, k.base⟩, ⟨k.ci, k.base⟩, hL, rfl, rfl, rfl, ?_⟩
  intro m here hr
  refine ⟨?_, ?_⟩
  · exact client_served_partial k L hL (by rw [hcfg]; exact hs) hreg hdist ⟨_, _, hci, p4, p5, p6⟩ _ rfl m here hr
  · intro id
    have := engine_served_partial k L hL (by rw [hcfg]; exact hs) hreg hdist ⟨_, _, hei, p1, p2, p3⟩ (by
      rw [hcfg, hci, hei]
      intro hx
      rw [hx, p7 hx]) hlen ⟨k.ei, k.base⟩ rfl m here hr id
    rw [hcfg] at this
    exact this

/-! ## the files, whatever was there before -/

/-- C78: whatever files a controller finds (left by earlier runs that may have crashed at any moment), if it starts then the files describe exactly the addresses it uses, and everybody has its session key. -/
theorem files_agree (c : Cfg) (f : Files) (es cs is : List Nat) (k : Ctl) (w : Bool) (h : Started c f es cs is k w) :
    ∃ ef cf, written f k w = ⟨.ok ef, .ok cf⟩ ∧ ef.info = k.ei ∧ cf.info = k.ci ∧ ef.base.key = k.base.key ∧ cf.base.key = k.base.key ∧ ef.base.location = k.base.location := by
  rcases started_cases h with ⟨hw, _⟩ | ⟨hw, _, e, cl, hl, h1, h2, h3, _⟩
  · subst hw; exact ⟨⟨k.ei, k.base⟩, ⟨k.ci, k.base⟩, rfl, rfl, rfl, rfl, rfl, rfl⟩
  · subst hw
    obtain ⟨l1, l2, l3, _⟩ := load_loaded hl
    refine ⟨e, cl, ?_, h1.symm, h2.symm, by rw [h3], by rw [h3, l3], by rw [h3]⟩
    unfold written saving
    simp only [Bool.false_eq_true, if_false, List.getLastD_cons, List.getLastD_nil]
    cases f
    simp only at l1 l2
    rw [l1, l2]

/-- C78: restarting with `reuse`, whatever else changed in the configuration, keeps all addresses and the key: engines and clients that are still up find the new controller where the old one was. -/
theorem restart_same_addresses (c1 c2 : Cfg) (f : Files) (es cs is es' cs' is' : List Nat) (k : Ctl) (w : Bool) (h : Started c1 f es cs is k w) (hr : c2.reuse = true) :
    ∃ k', Started c2 (written f k w) es' cs' is' k' false ∧ k'.ei = k.ei ∧ k'.ci = k.ci ∧ k'.base.key = k.base.key ∧ k'.base.location = k.base.location ∧
      written (written f k w) k' false = written f k w := by
  have hl : ∃ e cl, load (written f k w) = .loaded e cl ∧ e.info = k.ei ∧ cl.info = k.ci ∧ e.base.key = k.base.key ∧ e.base.location = k.base.location := by
    rcases started_cases h with ⟨hw, _⟩ | ⟨hw, _, e, cl, hl, h1, h2, h3, _⟩
    · subst hw
      exact ⟨⟨k.ei, k.base⟩, ⟨k.ci, k.base⟩, load_ok rfl rfl rfl (started_registration h).symm rfl rfl rfl, rfl, rfl, rfl, rfl⟩
    · subst hw
      refine ⟨e, cl, hl, h1.symm, h2.symm, by rw [h3], by rw [h3]⟩
  obtain ⟨e, cl, hl, e1, e2, e3, e4⟩ := hl
  refine ⟨{ cfg := c2, ei := e.info, ci := cl.info, base := { c2.base with key := e.base.key, location := e.base.location }, inner := (Tree.reserved c2.depth).zip is', mon := is'.getD (Tree.reserved c2.depth).length 0 }, ?_, e1, e2, e3, e4, rfl⟩
  unfold Started setup
  rw [if_pos hr, hl]

/-- the sockets for engines and clients -/
def Svc.outer : Svc → Bool
  | .broadcastInner _ => false
  | .monitor => false
  | _ => true

/-- C78: and if ips, depth and scheme are configured as before, it listens on the same sockets for engines and clients. -/
theorem restart_same_sockets (k k' : Ctl) (L L' : List (Svc × Str)) (hL : k.listens = some L) (hL' : k'.listens = some L') (he : k'.ei = k.ei) (hc : k'.ci = k.ci)
    (h1 : k'.cfg.clientIp = k.cfg.clientIp) (h2 : k'.cfg.engineIp = k.cfg.engineIp) (h3 : k'.cfg.depth = k.cfg.depth) (h4 : k'.cfg.scheme = k.cfg.scheme) :
    L'.filter (·.1.outer) = L.filter (·.1.outer) := by
  unfold Ctl.listens Ctl.leafSockets at hL hL'
  rw [he, hc, h1, h2, h3, h4] at hL'
  rw [← Ctl.leafSockets.eq_1] at hL hL'
  cases e : k.leafSockets with
  | none => rw [e] at hL; simp at hL
  | some lv =>
    rw [e] at hL hL'
    simp only [Option.map_some, Option.some.injEq] at hL hL'
    subst hL; subst hL'
    have hin : ∀ (k : Ctl), (k.inner.map (fun x => (Svc.broadcastInner x.1, constructUrl k.internalInterface x.2))).filter (·.1.outer) = [] := by
      intro k
      rw [List.filter_eq_nil_iff]
      intro x hx
      obtain ⟨y, _, rfl⟩ := List.mem_map.1 hx
      simp [Svc.outer]
    simp only [List.filter_append, hin]
    simp [Svc.outer]

/-- When does a start with `reuse` fail: exactly when it finds a file that was being written when a controller died. -/
theorem start_fails_iff (c : Cfg) (f : Files) (es cs is : List Nat) :
    setup c f es cs is = none ↔ c.reuse = true ∧ (f.engine = .broken ∨ (∃ e, f.engine = .ok e) ∧ f.client = .broken) := by
  unfold setup
  cases hr : c.reuse with
  | false => simp
  | true =>
    simp only [if_true, true_and]
    unfold load
    cases e1 : f.engine with
    | absent => simp
    | broken => simp
    | ok e => cases e2 : f.client with
      | absent => simp
      | broken => simp
      | ok cl =>
        simp only
        split <;> rename_i hh <;> split at hh <;> simp_all

/-- C78: a controller that starts after a crash at any point of an earlier first start: with `reuse` it fails exactly if the crash happened while the engines' file was being written, else it starts (and then `files_agree` holds). -/
theorem restart_after_crash (k : Ctl) (st : Files) (hst : st ∈ saving ⟨.absent, .absent⟩ k true) (c : Cfg) (es cs is : List Nat) :
    setup c st es cs is = none ↔ c.reuse = true ∧ st = ⟨.broken, .ok ⟨k.ci, k.base⟩⟩ := by
  rw [start_fails_iff]
  unfold saving at hst
  simp only [if_true, List.mem_cons, List.mem_nil_iff, or_false] at hst
  rcases hst with rfl | rfl | rfl | rfl | rfl <;> simp

/-- C78 (violation): there is such a crash point: the connection files are not written atomically, and the restart dies of the JSON error. -/
theorem half_written_violated (k : Ctl) (c : Cfg) (hr : c.reuse = true) (es cs is : List Nat) :
    ∃ st ∈ saving ⟨.absent, .absent⟩ k true, setup c st es cs is = none :=
  ⟨⟨.broken, .ok ⟨k.ci, k.base⟩⟩, by simp [saving], (restart_after_crash k _ (by simp [saving]) c es cs is).2 ⟨hr, rfl⟩⟩

/-- C78: a clean exit without `reuse` leaves no connection file behind -/
theorem clean_exit (c : Cfg) (f : Files) (h : c.reuse = false) : leaving c f = ⟨.absent, .absent⟩ := by
  unfold leaving; rw [h]; rfl

/-- C78: with `reuse` it leaves both -/
theorem clean_exit_reuse (c : Cfg) (f : Files) (h : c.reuse = true) : leaving c f = f := by
  unfold leaving; rw [h]; rfl

theorem mapM_mem {α β : Type} (f : α → Option β) : ∀ (l : List α) (r : List β), l.mapM f = some r → ∀ x ∈ r, ∃ a ∈ l, f a = some x
  | [], r, h => by simp at h; subst h; simp
  | a :: l, r, h => by
    rw [List.mapM_cons] at h
    cases hf : f a with
    | none => simp [hf] at h
    | some b =>
      cases hl : l.mapM f with
      | none => simp [hf, hl] at h
      | some r' =>
        simp [hf, hl] at h
        subst h
        intro x hx
        rcases List.mem_cons.1 hx with rfl | hx
        · exact ⟨a, List.mem_cons_self .., hf⟩
        · obtain ⟨y, hy, h⟩ := mapM_mem f l r' hl x hx
          exact ⟨y, List.mem_cons_of_mem _ hy, h⟩

/-- C78 (internal sockets): with transport tcp the sockets between the broadcast schedulers are bound to the loopback interface only, whatever the ips of the controller are. -/
theorem inner_loopback (k : Ctl) (h : k.cfg.engineTransport = tcp) (L : List (Svc × Str)) (hL : k.listens = some L) (id : List Bool) (u : Str) (hu : (Svc.broadcastInner id, u) ∈ L) :
    ∃ port, u = "tcp://127.0.0.1:".toList ++ Ports.showNat port := by
  unfold Ctl.listens at hL
  cases hl : k.leafSockets with
  | none => rw [hl] at hL; cases hL
  | some leaves =>
    rw [hl] at hL
    simp only [Option.map_some, Option.some.injEq] at hL
    have hleaf : ∀ x ∈ leaves, ∃ i, x.1 = .broadcastLeaf i := by
      intro x hx
      unfold Ctl.leafSockets at hl
      have := mapM_mem _ _ _ hl x hx
      obtain ⟨a, _, ha⟩ := this
      simp only [Option.map_eq_some_iff] at ha
      obtain ⟨p, _, hp⟩ := ha
      exact ⟨_, by rw [← hp]⟩
    rw [← hL, List.mem_append] at hu
    rcases hu with hu | hu
    · exfalso
      simp only [List.mem_append] at hu
      rcases hu with ((((hu | hu) | hu) | hu) | hu) | hu
      · simp at hu
      · split at hu <;> simp at hu
      · simp at hu
      · split at hu <;> simp at hu
      · simp at hu
      · obtain ⟨i, hi⟩ := hleaf _ hu
        cases hi
    · obtain ⟨x, _, hx⟩ := List.mem_map.1 hu
      simp only [Prod.mk.injEq] at hx
      refine ⟨x.2, ?_⟩
      rw [← hx.2]
      unfold constructUrl Ctl.internalInterface
      rw [if_pos h]
      have e : (splitScheme (joinScheme tcp ['1', '2', '7', '.', '0', '.', '0', '.', '1'])).head? ≠ some ipc := by decide
      rw [if_neg e]
      have e2 : joinScheme tcp ['1', '2', '7', '.', '0', '.', '0', '.', '1'] = "tcp://127.0.0.1".toList := by decide
      rw [e2]
      rfl

/-! ## what goes wrong -/

/-- C78 (violation): with transport ipc, no client ever reaches anything: for every path and every port, the address that it connects to is different from every address that the controller listens on. -/
theorem ipc_never_reached_violated (k : Ctl) (L : List (Svc × Str)) (hL : k.listens = some L) (path : Str) (hi : k.ci.interface = joinScheme ipc path) (he : k.ei.interface = joinScheme ipc path)
    (hn : k.internalInterface = joinScheme ipc path) (hp : splitScheme path = [path]) (hw : path ≠ zeros ∧ path ≠ star) (f : CFile) (hf : f.info = k.ci) (m : Machine) :
    ∃ conns, clientConnects m f = some conns ∧ ∀ x ∈ conns, ∀ y ∈ L, y.1 ≠ .monitor → x.2 ≠ y.2 := by
  have hint : clientInterface m f = some (joinScheme ipc path) := by
    unfold clientInterface
    rw [hf, hi, split_join ipc _ (by decide), hp]
    simp [disambiguateIp, hw]
  refine ⟨_, by unfold clientConnects; rw [hint]; rfl, ?_⟩
  have hcon : ∀ q, constructUrl (joinScheme ipc path) q = joinScheme ipc path ++ '-' :: Ports.showNat q := by
    intro q
    unfold constructUrl
    rw [split_join ipc _ (by decide)]
    simp
  have hy : ∀ y ∈ L, y.1 ≠ .monitor → ∃ q, y.2 = joinScheme ipc path ++ '-' :: Ports.showNat q := by
    unfold Ctl.listens at hL
    cases e : k.leafSockets with
    | none => rw [e] at hL; simp at hL
    | some lv =>
      rw [e] at hL
      simp only [Option.map_some, Option.some.injEq] at hL
      subst hL
      obtain ⟨_, hl⟩ := leaf_sockets e
      intro y hy hm
      rw [List.mem_append, List.mem_append, List.mem_append, List.mem_append, List.mem_append, List.mem_append] at hy
      rcases hy with (((((hy | hy) | hy) | hy) | hy) | hy) | hy
      · rw [List.mem_singleton] at hy; subst hy
        exact ⟨_, by rw [hi, hcon]⟩
      · split at hy
        · rw [List.mem_singleton] at hy; subst hy
          exact ⟨_, by rw [he, hcon]⟩
        · simp at hy
      · simp only [List.mem_cons, List.mem_nil_iff, or_false] at hy
        rcases hy with rfl | rfl | rfl | rfl | rfl | rfl | rfl | rfl | rfl | rfl
        all_goals first
          | exact absurd rfl hm
          | exact ⟨_, by rw [he, hcon]⟩
          | exact ⟨_, by rw [hi, hcon]⟩
      · split at hy
        · simp at hy
        · simp only [List.mem_cons, List.mem_nil_iff, or_false] at hy
          rcases hy with rfl | rfl
          · exact ⟨_, by rw [hi, hcon]⟩
          · exact ⟨_, by rw [he, hcon]⟩
      · rw [List.mem_singleton] at hy; subst hy
        exact ⟨_, by rw [hi, hcon]⟩
      · obtain ⟨i, _, p, _, rfl⟩ := hl y hy
        exact ⟨p, by rw [he, hcon]⟩
      · obtain ⟨x, _, rfl⟩ := List.mem_map.1 hy
        exact ⟨x.2, by rw [hn, hcon]⟩
  intro x hx y hyL hm e
  obtain ⟨q, hq⟩ := hy y hyL hm
  have hxp : ∃ p, x.2 = joinScheme ipc path ++ ':' :: Ports.showNat p := by
    simp only [List.mem_cons, List.mem_nil_iff, or_false] at hx
    rcases hx with rfl | rfl | rfl | rfl | rfl | rfl | rfl <;> exact ⟨_, rfl⟩
  obtain ⟨p, hp'⟩ := hxp
  rw [hp', hq] at e
  have := (tail_digits e (show_digits p) (show_digits q) (by decide) (by decide)).2.1
  revert this; decide

/-- C78 (violation): one ip with two transports (or a restart with `reuse` of a controller whose ips are no longer configured to differ): no socket listens where the engines are told to register. -/
theorem registration_unbound_violated (k : Ctl) (L : List (Svc × Str)) (hL : k.listens = some L) (hd : k.Distinct) (hreg : k.ei.registration = k.ci.registration)
    (hip : k.cfg.clientIp = k.cfg.engineIp) (hi : k.ci.interface ≠ k.ei.interface) : ∀ y ∈ L, y.2 ≠ constructUrl k.ei.interface k.ei.registration := by
  intro y hy e
  have hports := listens_ports hL hreg y hy
  obtain ⟨p, hp, hpe⟩ := hports
  have hpq : p = k.ei.registration := ends_inj hpe (by rw [e]; exact construct_ends _ _)
  have hsvc : y.1 = .registration := nodup_snd hd hp (by rw [hpq, hreg]; simp [Ctl.table])
  unfold Ctl.listens at hL
  cases e2 : k.leafSockets with
  | none => rw [e2] at hL; simp at hL
  | some lv =>
    rw [e2] at hL
    simp only [Option.map_some, Option.some.injEq, hip, ne_eq, not_true, if_false, List.append_nil] at hL
    subst hL
    obtain ⟨_, hl⟩ := leaf_sockets e2
    have hy1 : y = (.registration, constructUrl k.ci.interface k.ci.registration) := by
      rw [List.mem_append, List.mem_append, List.mem_append, List.mem_append, List.mem_append] at hy
      rcases hy with ((((hy | hy) | hy) | hy) | hy) | hy
      · rw [List.mem_singleton] at hy; exact hy
      · simp only [List.mem_cons, List.mem_nil_iff, or_false] at hy
        rcases hy with rfl | rfl | rfl | rfl | rfl | rfl | rfl | rfl | rfl | rfl <;> cases hsvc
      · split at hy
        · simp at hy
        · simp only [List.mem_cons, List.mem_nil_iff, or_false] at hy
          rcases hy with rfl | rfl <;> cases hsvc
      · rw [List.mem_singleton] at hy; subst hy; cases hsvc
      · obtain ⟨i, _, p, _, rfl⟩ := hl y hy; cases hsvc
      · obtain ⟨x, _, rfl⟩ := List.mem_map.1 hy; cases hsvc
    rw [hy1] at e
    simp only [hreg] at e
    unfold constructUrl at e
    have := tail_digits e (show_digits _) (show_digits _) (by split <;> decide) (by split <;> decide)
    exact hi this.1

/-- C78 (violation): a restart with `reuse` and a smaller depth: an engine whose id selects a leaf that does not exist any more connects to an address where nobody listens, so it never gets a broadcast. -/
theorem smaller_depth_violated (k : Ctl) (L : List (Svc × Str)) (hL : k.listens = some L) (hd : k.Distinct) (hreg : k.ei.registration = k.ci.registration) (id : Nat)
    (hid : 2 ^ k.cfg.depth ≤ id % k.ei.broadcast.length) (hb : k.ei.broadcast ≠ []) :
    ∃ p, k.ei.broadcast[id % k.ei.broadcast.length]? = some p ∧ ∀ y ∈ L, y.2 ≠ constructUrl k.ei.interface p := by
  have hlt : id % k.ei.broadcast.length < k.ei.broadcast.length := Nat.mod_lt _ (List.length_pos_iff.2 hb)
  refine ⟨_, List.getElem?_eq_getElem hlt, ?_⟩
  intro y hy e
  obtain ⟨p, hp, hpe⟩ := listens_ports hL hreg y hy
  have hpq := ends_inj hpe (by rw [e]; exact construct_ends _ _)
  subst hpq
  have hsvc : y.1 = .broadcastLeaf (id % k.ei.broadcast.length) := nodup_snd hd hp (by
    unfold Ctl.table
    rw [List.mem_append, List.mem_append]
    refine Or.inl (Or.inr (List.mem_map.2 ⟨_, List.mem_range.2 hlt, ?_⟩))
    simp [List.getD, hlt])
  unfold Ctl.listens at hL
  cases e2 : k.leafSockets with
  | none => rw [e2] at hL; simp at hL
  | some lv =>
    rw [e2] at hL
    simp only [Option.map_some, Option.some.injEq] at hL
    subst hL
    obtain ⟨_, hl⟩ := leaf_sockets e2
    rw [List.mem_append, List.mem_append, List.mem_append, List.mem_append, List.mem_append, List.mem_append] at hy
    rcases hy with (((((hy | hy) | hy) | hy) | hy) | hy) | hy
    · rw [List.mem_singleton] at hy; subst hy; cases hsvc
    · split at hy
      · rw [List.mem_singleton] at hy; subst hy; cases hsvc
      · simp at hy
    · simp only [List.mem_cons, List.mem_nil_iff, or_false] at hy
      rcases hy with rfl | rfl | rfl | rfl | rfl | rfl | rfl | rfl | rfl | rfl <;> cases hsvc
    · split at hy
      · simp at hy
      · simp only [List.mem_cons, List.mem_nil_iff, or_false] at hy
        rcases hy with rfl | rfl <;> cases hsvc
    · rw [List.mem_singleton] at hy; subst hy; cases hsvc
    · obtain ⟨i, hi, p, _, rfl⟩ := hl y hy
      simp only [Svc.broadcastLeaf.injEq] at hsvc
      omega
    · obtain ⟨x, _, rfl⟩ := List.mem_map.1 hy; cases hsvc

/-- C78 (violation): a larger depth than in the reused files: the controller does not start (IndexError). -/
theorem larger_depth_violated (k : Ctl) (h : k.ei.broadcast.length < 2 ^ k.cfg.depth) : k.listens = none := by
  cases e : k.listens with
  | none => rfl
  | some L =>
    unfold Ctl.listens at e
    cases e2 : k.leafSockets with
    | none => rw [e2] at e; simp at e
    | some lv =>
      obtain ⟨hl, _⟩ := leaf_sockets e2
      obtain ⟨p, hp, _⟩ := hl _ h
      rw [List.getElem?_eq_none (Nat.le_refl _)] at hp
      cases hp

/-- C78 (violation): a restart with `reuse` and curve: unless the keys are configured, the controller has a new key pair while the files keep the old public key (and in the same way a changed packer or signature scheme is not written). -/
theorem reuse_curve_violated (c1 c2 : Cfg) (f : Files) (es cs is es' cs' is' : List Nat) (k k' : Ctl) (h : Started c1 f es cs is k true) (hr : c2.reuse = true)
    (h' : Started c2 (written f k true) es' cs' is' k' false) (hne : c2.base.curve ≠ c1.base.curve) :
    ∃ ef cf, written (written f k true) k' false = ⟨.ok ef, .ok cf⟩ ∧ ef.base.curve ≠ k'.base.curve ∧ cf.base.curve ≠ k'.base.curve := by
  refine ⟨⟨k.ei, k.base⟩, ⟨k.ci, k.base⟩, rfl, ?_, ?_⟩
  all_goals
    rcases started_cases h with ⟨_, _, _, _, _, _, _, _, _, hcv⟩ | ⟨hw, _⟩
    · rcases started_cases h' with ⟨hw, _⟩ | ⟨_, _, e, cl, _, _, _, hb, _⟩
      · cases hw
      · rw [hb]
        simp only [hcv]
        exact fun e => hne e.symm
    · cases hw

/-! ## `get_connection_info` -/

/-- C78: while a controller starts for the first time (no files before), whatever the moments at which the launcher looks, it returns the information of this controller or fails. -/
theorem info_is_new (k : Ctl) (looks : List Files) (c1 c2 e1 e2 : Files) (h : ∀ f ∈ [c1, c2, e1, e2], f ∈ saving ⟨.absent, .absent⟩ k true) (c : CFile) (e : EFile)
    (hg : getInfo looks c1 c2 e1 e2 = some (c, e)) : c = ⟨k.ci, k.base⟩ ∧ e = ⟨k.ei, k.base⟩ := by
  have hc : ∀ f ∈ saving ⟨.absent, .absent⟩ k true, (∀ x, f.client = .ok x → x = ⟨k.ci, k.base⟩) ∧ ∀ x, f.engine = .ok x → x = ⟨k.ei, k.base⟩ := by
    intro f hf
    unfold saving at hf
    simp only [if_true, List.mem_cons, List.mem_nil_iff, or_false] at hf
    rcases hf with rfl | rfl | rfl | rfl | rfl <;> refine ⟨?_, ?_⟩ <;> intro x hx <;> cases hx <;> rfl
  have hread : ∀ {α : Type} (a b : File α) (x : α), readTwice a b = some x → a = .ok x ∨ b = .ok x := by
    intro α a b x h
    unfold readTwice at h
    cases a with
    | absent => simp at h
    | ok y => left; simp only [Option.some.injEq] at h; rw [h]
    | broken => cases b with
      | absent => simp at h
      | broken => simp at h
      | ok y => right; simp only [Option.some.injEq] at h; rw [h]
  unfold getInfo at hg
  split at hg
  · cases h1 : readTwice c1.client c2.client with
    | none => rw [h1] at hg; simp at hg
    | some x => cases h2 : readTwice e1.engine e2.engine with
      | none => rw [h1, h2] at hg; simp at hg
      | some y =>
        rw [h1, h2] at hg
        simp only [Option.some.injEq, Prod.mk.injEq] at hg
        obtain ⟨rfl, rfl⟩ := hg
        refine ⟨?_, ?_⟩
        · rcases hread _ _ _ h1 with hx | hx
          · exact (hc c1 (h c1 (by simp))).1 _ hx
          · exact (hc c2 (h c2 (by simp))).1 _ hx
        · rcases hread _ _ _ h2 with hx | hx
          · exact (hc e1 (h e1 (by simp))).2 _ hx
          · exact (hc e2 (h e2 (by simp))).2 _ hx
  · simp at hg

/-- C78: if it finds both files within its time, and what it finds half-written is complete half a second later, then it returns the information. -/
theorem info_found (k : Ctl) (looks : List Files) (f c1 e1 : Files) (hf : f ∈ looks) (hx : f.client ≠ .absent ∧ f.engine ≠ .absent) (hc : c1.client = .broken ∨ c1.client = .ok ⟨k.ci, k.base⟩)
    (he : e1.engine = .broken ∨ e1.engine = .ok ⟨k.ei, k.base⟩) :
    getInfo looks c1 (written ⟨.absent, .absent⟩ k true) e1 (written ⟨.absent, .absent⟩ k true) = some (⟨k.ci, k.base⟩, ⟨k.ei, k.base⟩) := by
  have ha : appeared looks = true := by
    induction looks with
    | nil => simp at hf
    | cons g r ih =>
      rw [appeared]
      split
      · rename_i hg
        rw [List.mem_cons] at hf
        rcases hf with rfl | hf
        · exact absurd hg (by simp [hx])
        · exact ih hf
      · rfl
  unfold getInfo
  rw [if_pos ha]
  rcases hc with hc | hc <;> rcases he with he | he <;> rw [hc, he] <;> rfl

/-- C78: and it never returns while one of the files is missing -/
theorem info_waits (looks : List Files) (c1 c2 e1 e2 : Files) (h : ∀ f ∈ looks, f.client = .absent ∨ f.engine = .absent) : getInfo looks c1 c2 e1 e2 = none := by
  have ha : appeared looks = false := by
    induction looks with
    | nil => rfl
    | cons g r ih =>
      rw [appeared, if_pos (h g (by simp))]
      exact ih (fun f hf => h f (List.mem_cons_of_mem _ hf))
  unfold getInfo
  rw [ha]; rfl

/-- C78 (violation): files left by a controller that was killed are taken for those of the new one: at the start, `get_connection_info` returns the old addresses at once. -/
theorem stale_info_violated (old k : Ctl) : ∃ f ∈ saving (written ⟨.absent, .absent⟩ old true) k true, getInfo [f] f f f f = some (⟨old.ci, old.base⟩, ⟨old.ei, old.base⟩) :=
  ⟨written ⟨.absent, .absent⟩ old true, by simp [saving], rfl⟩

/-! ## names of the files -/

/-- C78: engines, clients and launchers look for exactly the files that the controller writes -/
theorem file_names_agree (id : Str) : engineReads id = (controllerNames id).1 ∧ clientReads id = (controllerNames id).2 ∧ launcherNames id engineKind = (controllerNames id).1 ∧
    launcherNames id clientKind = (controllerNames id).2 := by
  refine ⟨rfl, ?_, rfl, rfl⟩
  unfold clientReads controllerNames
  by_cases h : id = [] <;> simp [h]

/-- C78: clusters with different ids have different connection files, and a file for engines is never one for clients -/
theorem file_names_differ (a b ka kb : Str) (ha : ka = clientKind ∨ ka = engineKind) (hb : kb = clientKind ∨ kb = engineKind) (h : launcherNames a ka = launcherNames b kb) : a = b ∧ ka = kb := by
  unfold launcherNames at h
  have hlen : ka.length = kb.length := by rcases ha with rfl | rfl <;> rcases hb with rfl | rfl <;> rfl
  have h := List.append_cancel_right h
  have h2 := List.append_inj' h (by simp [hlen])
  refine ⟨?_, (List.cons.inj h2.2).2⟩
  have h3 := h2.1
  by_cases e1 : a = [] <;> by_cases e2 : b = []
  · rw [e1, e2]
  · simp only [e1, e2, ne_eq, not_true, not_false_eq_true, if_false, if_true] at h3
    have := congrArg List.length h3
    simp at this
  · simp only [e1, e2, ne_eq, not_true, not_false_eq_true, if_false, if_true] at h3
    have := congrArg List.length h3
    simp at this
  · simp only [e1, e2, ne_eq, not_false_eq_true, if_true] at h3
    exact (List.cons.inj (List.append_cancel_left h3)).2

/-! ## the leaf of an engine (with C24) -/

/-- C78, with C24: the leaf to which an engine connects is the one through which the tree of schedulers sends the messages for it, exactly once, whatever the depth and the ids. -/
theorem leaf_is_right (k : Ctl) (hlen : k.ei.broadcast.length = 2 ^ k.cfg.depth) (targets : List Broadcast.Target) (hd : (targets.map (·.uuid)).Nodup) (t : Broadcast.Target) (ht : t ∈ targets)
    (m : Machine) (f : EFile) (hf : f.info = k.ei) (conns : List (Svc × Str)) (hc : engineConnects m f t.id = some conns) :
    ∃ leaf, (∃ url, (Svc.broadcastLeaf leaf, url) ∈ conns) ∧ (∀ other, (∃ url, (Svc.broadcastLeaf other, url) ∈ conns) → other = leaf) ∧
      (Broadcast.deliveries k.cfg.depth k.cfg.depth [] targets).count (leaf, t.uuid) = 1 := by
  refine ⟨t.id % 2 ^ k.cfg.depth, ?_, ?_, (Broadcast.broadcast_exactly_once k.cfg.depth targets hd).1 t ht⟩
  all_goals
    unfold engineConnects at hc
    cases e : engineInterface m f with
    | none => rw [e] at hc; simp at hc
    | some i =>
      rw [e] at hc
      simp only [hf, hlen] at hc
      cases e2 : k.ei.broadcast[t.id % 2 ^ k.cfg.depth]? with
      | none => rw [e2] at hc; simp at hc
      | some b =>
        rw [e2] at hc
        simp only [Option.some.injEq] at hc
        subst hc
        first
          | exact ⟨_, List.mem_cons_of_mem _ (List.mem_cons_of_mem _ (List.mem_cons_of_mem _ (List.mem_cons_self ..)))⟩
          | (rintro other ⟨url, hu⟩
             simp only [List.mem_cons, List.mem_nil_iff, or_false, Prod.mk.injEq, reduceCtorEq, false_and, false_or, Svc.broadcastLeaf.injEq] at hu
             exact hu.1)

/-! ## with the port pools of C48 -/

theorem serveOffers_length (reqs : List (Ports.Pool × List Int)) : ∀ (s : Ports.St) (ports : List Int), Ports.serveOffers s reqs = some ports → ports.length = reqs.length := by
  induction reqs with
  | nil => intro s ports h; simp only [Ports.serveOffers, Option.some.injEq] at h; subst h; rfl
  | cons x l ih =>
    obtain ⟨p, offers⟩ := x
    intro s ports h
    rw [Ports.serveOffers] at h
    cases e : Ports.selectRandom s.randoms offers with
    | none => rw [e] at h; simp at h
    | some os =>
      rw [e] at h
      simp only [Option.map_eq_some_iff] at h
      obtain ⟨r, hr, rfl⟩ := h
      simp [ih _ _ hr]

/-- C78, with C48: the ports that `next_port` gives out for one start of the controller (configured pools that do not overlap, a system that offers none of the configured ports) satisfy what `fresh_start_serves_partial` asks for. -/
theorem pools_suffice (depth : Nat) (client engine common : List Int) (reqs : List (Ports.Pool × List Int)) (hreqs : reqs.map (·.1) = enginePools depth ++ clientPools ++ innerPools depth)
    (ports : List Nat) (h : Ports.serveOffers (Ports.start client engine common) reqs = some (ports.map Int.ofNat)) (hd : (client ++ engine ++ common).Nodup)
    (hdis : ∀ x ∈ reqs, ∀ o ∈ x.2, o ∉ client ++ engine ++ common) :
    ∃ es cs is, ports = es ++ cs ++ is ∧ es.length = (enginePools depth).length ∧ cs.length = clientPools.length ∧ is.length = (innerPools depth).length ∧ (es ++ cs ++ is).Nodup := by
  have hlen := serveOffers_length reqs _ _ h
  have hnd := Ports.ports_distinct_partial client engine common reqs _ h hd hdis
  have hr : reqs.length = (enginePools depth).length + clientPools.length + (innerPools depth).length := by
    rw [← List.length_map (f := fun x : Ports.Pool × List Int => x.1), hreqs]; simp only [List.length_append]
  rw [List.length_map] at hlen
  have hp : ports.Nodup := by
    rw [List.nodup_iff_pairwise_ne] at hnd ⊢
    exact (List.pairwise_map.1 hnd).imp (fun hne e => hne (by rw [e]))
  refine ⟨ports.take (enginePools depth).length, (ports.drop (enginePools depth).length).take clientPools.length, (ports.drop (enginePools depth).length).drop clientPools.length, ?_, ?_, ?_, ?_, ?_⟩
  · rw [List.append_assoc, List.take_append_drop, List.take_append_drop]
  · rw [List.length_take]; omega
  · rw [List.length_take, List.length_drop]; omega
  · rw [List.length_drop, List.length_drop]; omega
  · rw [List.append_assoc, List.take_append_drop, List.take_append_drop]; exact hp

/-! ## a concrete case -/

def exampleCfg : Cfg where
  engineTransport := tcp
  engineIp := star
  clientTransport := tcp
  clientIp := ['1', '2', '7', '.', '0', '.', '0', '.', '1']
  monitorTransport := tcp
  monitorIp := ['1', '2', '7', '.', '0', '.', '0', '.', '1']
  depth := 1
  scheme := ['l', 'r', 'u']
  base := ⟨['k'], none, ['h', 'o', 's', 't'], [], [], []⟩
  reuse := false

def exampleMachine : Machine where
  localhost := ['1', '2', '7', '.', '0', '.', '0', '.', '1']
  hostname := ['o', 't', 'h', 'e', 'r']
  resolve := fun x => if x = ['h', 'o', 's', 't'] then ['1', '0', '.', '0', '.', '0', '.', '7'] else x
  publicIps := [['1', '0', '.', '0', '.', '0', '.', '8']]
  isIp := fun _ => false

/-- an engine on another machine: it connects to the address of the host named as location, at the second of two leaves -/
example : ∃ k, Started exampleCfg ⟨.absent, .absent⟩ [1, 2, 3, 4, 5, 6, 7, 8, 9] [11, 12, 13, 14, 15, 16] [21, 22, 23] k true ∧ PlainCfg exampleCfg ∧
    Right exampleMachine False k.base.location ∧
    ∃ conns, engineConnects exampleMachine ⟨k.ei, k.base⟩ 3 = some conns ∧
      (Svc.broadcastLeaf 1, tcp ++ schemeSep ++ ['1', '0', '.', '0', '.', '0', '.', '7', ':', '9']) ∈ conns :=
  ⟨_, rfl, by unfold PlainCfg; decide, by unfold Right; decide, _, rfl, by decide +kernel⟩

end IPP.Conn
