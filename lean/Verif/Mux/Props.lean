/-!
# C50: the direct (multiplexed) and control queues — app.py:1112-1136

Both are `MonitoredQueue(ROUTER, ROUTER, PUB, in_prefix, out_prefix)` of pyzmq: the code of ipyparallel only builds them, and relies on
what they do with the identity frames. That is modelled here from pyzmq's documentation (it is part of the trusted base): a ROUTER socket puts the
sender's identity before what it receives, and takes the first frame of what it sends as the address, dropping the message if nobody with that
identity is connected; a monitored queue between two ROUTERs swaps the first two frames, and sends a copy, prefix first, to the monitor.

A message is a list of identity frames (everything before the `<IDS|MSG>` delimiter) and a payload.
-/
namespace IPP.Mux

/-- ZMQ identities (bytes); the sockets of controller/app.py:1076-1180 -/
abbrev Ident := Nat

/-- a multipart message on the queues of controller/app.py:1076-1180 -/
structure Msg (π : Type) where
  idents : List Ident
  payload : π
  deriving DecidableEq, Repr

/-- a ROUTER receives from `peer` (zmq) — for the ROUTER sockets of controller/app.py:1076-1180 -/
def routerRecv {π : Type} (peer : Ident) (m : Msg π) : Msg π := { m with idents := peer :: m.idents }

/-- a ROUTER sends (zmq): the address and what arrives there; `none`: dropped — for the ROUTER sockets of controller/app.py:1076-1180 -/
def routerSend {π : Type} (connected : Ident → Bool) (m : Msg π) : Option (Ident × Msg π) := match m.idents with
  | [] => none
  | a :: r => if connected a then some (a, { m with idents := r }) else none

/-- what a monitored queue does with the first two frames when both sockets are ROUTERs (pyzmq `_relay` with `swap_ids`); a message with fewer is not forwarded — for the `ThreadMonitoredQueue`s of controller/app.py:1076-1180 -/
def swapIds {π : Type} (m : Msg π) : Option (Msg π) := match m.idents with
  | a :: b :: r => some { m with idents := b :: a :: r }
  | _ => none

/-- `prefix_in` or `prefix_out` — app.py:1114 -/
inductive Prefix where
  | «in» | out
  deriving DecidableEq, Repr

/-- the world: clients, the queue, engines, and the hub at the monitor socket — controller/app.py:1076-1180, engine/app.py:606-780 -/
structure W (π : Type) where
  clients : Ident → Bool := fun _ => false
  engines : Ident → Bool := fun _ => false
  /-- what each engine has received and not handled -/
  inbox : Ident → List (Msg π) := fun _ => []
  /-- everything each engine ever received -/
  received : Ident → List (Msg π) := fun _ => []
  /-- what each client has received -/
  answers : Ident → List (Msg π) := fun _ => []
  monitor : List (Prefix × Msg π) := []

/-- What happens. -/
inductive Ev (π : Type) where
  | client (c : Ident) (up : Bool)
  | engine (e : Ident) (up : Bool)
  /-- a client sends a request, addressed to an engine: client.py:1311-1320 `session.send(socket, .., ident=ident)` -/
  | request (c e : Ident) (p : π)
  /-- an engine handles the oldest request it has and answers to the identities it came with (ipykernel: `session.send(stream, .., ident=ident)`) -/
  | serve (e : Ident)

/-- client → engine through the queue — app.py:1114-1124 -/
def relayIn {π : Type} (w : W π) (c : Ident) (m : Msg π) : W π := match swapIds (routerRecv c m) with
  | none => w
  | some m' =>
    let w := { w with monitor := w.monitor ++ [(.in, m')] }
    match routerSend w.engines m' with
    | none => w
    | some (e, m'') => { w with
        inbox := fun x => if x = e then w.inbox x ++ [m''] else w.inbox x
        received := fun x => if x = e then w.received x ++ [m''] else w.received x }

/-- engine → client through the queue — app.py:1114-1124 -/
def relayOut {π : Type} (w : W π) (e : Ident) (m : Msg π) : W π := match swapIds (routerRecv e m) with
  | none => w
  | some m' =>
    let w := { w with monitor := w.monitor ++ [(.out, m')] }
    match routerSend w.clients m' with
    | none => w
    | some (c, m'') => { w with answers := fun x => if x = c then w.answers x ++ [m''] else w.answers x }

/-- one event; `f` is what the engines answer — controller/app.py:1076-1180, engine/app.py:606-780 -/
def step {π : Type} (f : Ident → π → π) (w : W π) : Ev π → W π
  | .client c up => { w with clients := fun x => if x = c then up else w.clients x }
  | .engine e up => { w with engines := fun x => if x = e then up else w.engines x }
  | .request c e p => if w.clients c then relayIn w c ⟨[e], p⟩ else w
  | .serve e =>
    if w.engines e then match w.inbox e with
      | [] => w
      | m :: r =>
        let w := { w with inbox := fun x => if x = e then r else w.inbox x }
        relayOut w e ⟨m.idents, f e m.payload⟩
    else w

/-- a history — any interleaving, controller/app.py:1076-1180 -/
def run {π : Type} (f : Ident → π → π) (h : List (Ev π)) : W π := h.foldl (step f) {}

/-- what the hub takes for (engine, client) of a monitored message — hub.py:447 `queue_id, client_id = idents[:2]`, hub.py:508 `client_id, queue_id = idents[:2]` -/
def hubView {π : Type} (x : Prefix × Msg π) : Option (Ident × Ident) := match x.1, x.2.idents with
  | .in, q :: c :: _ => some (q, c)
  | .out, c :: q :: _ => some (q, c)
  | _, _ => none

/-! ## Specification, from the history alone -/

/-- is the client connected after `h` -/
def clientUp {π : Type} (c : Ident) (h : List (Ev π)) : Bool := h.foldl (fun b ev => match ev with
  | .client x up => if c = x then up else b
  | _ => b) false

/-- is the engine connected after `h` -/
def engineUp {π : Type} (e : Ident) (h : List (Ev π)) : Bool := h.foldl (fun b ev => match ev with
  | .engine x up => if e = x then up else b
  | _ => b) false

/-- go through a history, looking at each event together with what came before it -/
def collect {α β : Type} (g : List α → α → Option β) : List α → List α → List β
  | _, [] => []
  | past, ev :: rest => (g past ev).toList ++ collect g (past ++ [ev]) rest

/-- the requests of connected clients to `e`, made while `e` was connected: (client, payload), in order -/
def requestsTo {π : Type} (e : Ident) (h : List (Ev π)) : List (Ident × π) :=
  collect (fun past ev => match ev with
    | .request c e' p => if e' = e ∧ clientUp c past ∧ engineUp e past then some (c, p) else none
    | _ => none) [] h

/-- how many of its requests `e` has handled: each time it is ready, while connected, it handles one if there is one left; `past` is the history before -/
def handledFrom {π : Type} (e : Ident) : List (Ev π) → Nat → List (Ev π) → Nat
  | _, n, [] => n
  | past, n, .serve e' :: rest => handledFrom e (past ++ [.serve e']) (if e' = e ∧ engineUp e past ∧ n < (requestsTo e past).length then n + 1 else n) rest
  | past, n, ev :: rest => handledFrom e (past ++ [ev]) n rest

/-- how many requests `e` has handled after `h` -/
def handled {π : Type} (e : Ident) (h : List (Ev π)) : Nat := handledFrom e [] 0 h

/-- the requests made by connected clients, as (engine, client) -/
def asked {π : Type} (h : List (Ev π)) : List (Ident × Ident) :=
  collect (fun past ev => match ev with
    | .request c e _ => if clientUp c past then some (e, c) else none
    | _ => none) [] h

/-! ## Proofs -/

theorem snoc_induction {α : Type} {P : List α → Prop} (h0 : P []) (hs : ∀ l a, P l → P (l ++ [a])) (l : List α) : P l := by
  have : ∀ (r l : List α), P l → P (l ++ r) := by
    intro r
    induction r with
    | nil => intro l h; simpa using h
    | cons a r ih =>
      intro l h
      have := ih (l ++ [a]) (hs l a h)
      simpa using this
  simpa using this l [] h0

theorem collect_snoc {α β : Type} (g : List α → α → Option β) (h : List α) (a : α) : ∀ past, collect g past (h ++ [a]) = collect g past h ++ (g (past ++ h) a).toList := by
  induction h with
  | nil => intro past; simp [collect]
  | cons x r ih => intro past; simp [collect, ih]

theorem run_snoc {π : Type} (f : Ident → π → π) (h : List (Ev π)) (ev : Ev π) : run f (h ++ [ev]) = step f (run f h) ev := by
  simp [run, List.foldl_append]

theorem clientUp_snoc {π : Type} (c : Ident) (h : List (Ev π)) (ev : Ev π) : clientUp c (h ++ [ev]) = (match ev with
    | .client x up => if c = x then up else clientUp c h
    | _ => clientUp c h) := by
  simp [clientUp, List.foldl_append]

theorem engineUp_snoc {π : Type} (e : Ident) (h : List (Ev π)) (ev : Ev π) : engineUp e (h ++ [ev]) = (match ev with
    | .engine x up => if e = x then up else engineUp e h
    | _ => engineUp e h) := by
  simp [engineUp, List.foldl_append]

theorem requestsTo_snoc {π : Type} (e : Ident) (h : List (Ev π)) (ev : Ev π) : requestsTo e (h ++ [ev]) = requestsTo e h ++ (match ev with
    | .request c e' p => if e' = e ∧ clientUp c h ∧ engineUp e h then [(c, p)] else []
    | _ => []) := by
  simp only [requestsTo, collect_snoc, List.nil_append]
  cases ev <;> simp only [Option.toList_none]
  split <;> rfl

theorem asked_snoc {π : Type} (h : List (Ev π)) (ev : Ev π) : asked (h ++ [ev]) = asked h ++ (match ev with
    | .request c e _ => if clientUp c h then [(e, c)] else []
    | _ => []) := by
  simp only [asked, collect_snoc, List.nil_append]
  cases ev <;> simp only [Option.toList_none]
  split <;> rfl

theorem handledFrom_snoc {π : Type} (e : Ident) (ev : Ev π) (h : List (Ev π)) : ∀ (past : List (Ev π)) (n : Nat), handledFrom e past n (h ++ [ev]) = (match ev with
    | .serve e' => if e' = e ∧ engineUp e (past ++ h) ∧ handledFrom e past n h < (requestsTo e (past ++ h)).length then handledFrom e past n h + 1 else handledFrom e past n h
    | _ => handledFrom e past n h) := by
  induction h with
  | nil =>
    intro past n
    cases ev <;> simp [handledFrom]
  | cons x r ih =>
    intro past n
    cases x <;> simp only [List.cons_append, handledFrom, ih, List.append_assoc, List.nil_append] <;> cases ev <;> rfl

theorem handled_snoc {π : Type} (e : Ident) (ev : Ev π) (h : List (Ev π)) : handled e (h ++ [ev]) = (match ev with
    | .serve e' => if e' = e ∧ engineUp e h ∧ handled e h < (requestsTo e h).length then handled e h + 1 else handled e h
    | _ => handled e h) := by
  simp only [handled, handledFrom_snoc, List.nil_append]
  cases ev <;> rfl

theorem relayIn_eq {π : Type} (w : W π) (c e : Ident) (p : π) : relayIn w c ⟨[e], p⟩ =
    if w.engines e then { w with
        monitor := w.monitor ++ [(.in, ⟨[e, c], p⟩)]
        inbox := fun x => if x = e then w.inbox x ++ [⟨[c], p⟩] else w.inbox x
        received := fun x => if x = e then w.received x ++ [⟨[c], p⟩] else w.received x }
    else { w with monitor := w.monitor ++ [(.in, ⟨[e, c], p⟩)] } := by
  simp only [relayIn, routerRecv, swapIds, routerSend]
  cases w.engines e <;> rfl

theorem relayOut_eq {π : Type} (w : W π) (c e : Ident) (p : π) : relayOut w e ⟨[c], p⟩ =
    if w.clients c then { w with
        monitor := w.monitor ++ [(.out, ⟨[c, e], p⟩)]
        answers := fun x => if x = c then w.answers x ++ [⟨[e], p⟩] else w.answers x }
    else { w with monitor := w.monitor ++ [(.out, ⟨[c, e], p⟩)] } := by
  simp only [relayOut, routerRecv, swapIds, routerSend]
  cases w.clients c <;> rfl

/-- the requests of `c` to `e` that `e` has handled, with its answers -/
def answered {π : Type} (f : Ident → π → π) (c e : Ident) (h : List (Ev π)) : List (Msg π) :=
  (((requestsTo e h).take (handled e h)).filter (fun x => x.1 = c)).map (fun x => ⟨[e], f e x.2⟩)

/-- the client's connection is never lost -/
def stays {π : Type} (c : Ident) (h : List (Ev π)) : Prop := ∀ ev ∈ h, match ev with
  | .client x up => x = c → up = true
  | _ => True

structure Inv {π : Type} (f : Ident → π → π) (h : List (Ev π)) (w : W π) : Prop where
  cl : ∀ c, w.clients c = clientUp c h
  en : ∀ e, w.engines e = engineUp e h
  le : ∀ e, handled e h ≤ (requestsTo e h).length
  rc : ∀ e, w.received e = (requestsTo e h).map (fun x => ⟨[x.1], x.2⟩)
  bx : ∀ e, w.inbox e = ((requestsTo e h).drop (handled e h)).map (fun x => ⟨[x.1], x.2⟩)
  mi : (w.monitor.filter (fun x => x.1 = .in)).map hubView = (asked h).map some
  mo : ∀ e, (w.monitor.filter (fun x => x.1 = .out ∧ (hubView x).map (·.1) = some e)).map hubView = ((requestsTo e h).take (handled e h)).map (fun x => some (e, x.1))
  an : ∀ c e, ((w.answers c).filter (fun m => m.idents = [e])).Sublist (answered f c e h)
  ids : ∀ c, ∀ m ∈ w.answers c, ∃ e, m.idents = [e]
  ax : ∀ c e, stays c h → ((w.answers c).filter (fun m => m.idents = [e])) = answered f c e h
  up : ∀ c e, stays c h → ∀ x ∈ requestsTo e h, x.1 = c → clientUp c h = true

theorem inv_init {π : Type} (f : Ident → π → π) : Inv f [] (run f []) := by
  constructor <;> simp [run, clientUp, engineUp, handled, handledFrom, requestsTo, collect, asked, answered]

theorem stays_snoc {π : Type} {c : Ident} {h : List (Ev π)} {ev : Ev π} (hs : stays c (h ++ [ev])) : stays c h := fun x hx => hs x (by simp [hx])

theorem answered_congr {π : Type} (f : Ident → π → π) (c e : Ident) {h h' : List (Ev π)} (h1 : requestsTo e h' = requestsTo e h) (h2 : handled e h' = handled e h) : answered f c e h' = answered f c e h := by
  simp only [answered, h1, h2]

theorem inv_quiet {π : Type} (f : Ident → π → π) {h : List (Ev π)} {w w' : W π} {ev : Ev π} (I : Inv f h w)
    (hc : ∀ c, w'.clients c = clientUp c (h ++ [ev])) (he : ∀ e, w'.engines e = engineUp e (h ++ [ev]))
    (hr : ∀ e, requestsTo e (h ++ [ev]) = requestsTo e h) (hh : ∀ e, handled e (h ++ [ev]) = handled e h)
    (ha : (asked (h ++ [ev])) = asked h)
    (h1 : w'.received = w.received) (h2 : w'.inbox = w.inbox) (h3 : w'.monitor = w.monitor) (h4 : w'.answers = w.answers)
    (hu : ∀ c, stays c (h ++ [ev]) → clientUp c h = true → clientUp c (h ++ [ev]) = true) : Inv f (h ++ [ev]) w' where
  cl := hc
  en := he
  le e := by rw [hr, hh]; exact I.le e
  rc e := by rw [h1, hr]; exact I.rc e
  bx e := by rw [h2, hr, hh]; exact I.bx e
  mi := by rw [h3, ha]; exact I.mi
  mo e := by rw [h3, hr, hh]; exact I.mo e
  an c e := by rw [h4, answered_congr f c e (hr e) (hh e)]; exact I.an c e
  ids := by rw [h4]; exact I.ids
  ax c e hs := by rw [h4, answered_congr f c e (hr e) (hh e)]; exact I.ax c e (stays_snoc hs)
  up c e hs x hx hxc := by rw [hr] at hx; exact hu c hs (I.up c e (stays_snoc hs) x hx hxc)

theorem inv_step {π : Type} (f : Ident → π → π) {h : List (Ev π)} {w : W π} (I : Inv f h w) (ev : Ev π) : Inv f (h ++ [ev]) (step f w ev) := by
  cases ev with
  | client c up =>
    refine inv_quiet f I ?_ ?_ ?_ ?_ ?_ rfl rfl rfl rfl ?_
    · intro c'; simp only [step, clientUp_snoc, I.cl]
    · intro e; simp only [step, engineUp_snoc, I.en]
    · intro e; simp [requestsTo_snoc]
    · intro e; simp [handled_snoc]
    · simp [asked_snoc]
    · intro c' hs hu
      simp only [clientUp_snoc]
      split
      · next heq => exact hs (.client c up) (by simp) heq.symm
      · exact hu
  | engine e up =>
    refine inv_quiet f I ?_ ?_ ?_ ?_ ?_ rfl rfl rfl rfl ?_
    · intro c'; simp only [step, clientUp_snoc, I.cl]
    · intro e; simp only [step, engineUp_snoc, I.en]
    · intro e; simp [requestsTo_snoc]
    · intro e; simp [handled_snoc]
    · simp [asked_snoc]
    · intro c' _ hu; simpa [clientUp_snoc] using hu
  | request c e p =>
    simp only [step, I.cl]
    by_cases hcu : clientUp c h = true
    · rw [if_pos hcu, relayIn_eq, I.en]
      have hask : asked (h ++ [.request c e p]) = asked h ++ [(e, c)] := by simp [asked_snoc, hcu]
      have hmon : ((w.monitor ++ [((.in, ⟨[e, c], p⟩) : Prefix × Msg π)]).filter (fun x => x.1 = .in)).map hubView = (asked (h ++ [.request c e p])).map some := by
        rw [hask, List.filter_append, List.map_append, I.mi]; simp [hubView]
      have hmono : ∀ e', ((w.monitor ++ [((.in, ⟨[e, c], p⟩) : Prefix × Msg π)]).filter (fun x => x.1 = .out ∧ (hubView x).map (·.1) = some e')) = w.monitor.filter (fun x => x.1 = .out ∧ (hubView x).map (·.1) = some e') := by
        intro e'; simp [List.filter_append]
      have hhand : ∀ e', handled e' (h ++ [.request c e p]) = handled e' h := by intro e'; simp [handled_snoc]
      by_cases heu : engineUp e h = true
      · rw [if_pos heu]
        have hreq : ∀ e', requestsTo e' (h ++ [.request c e p]) = if e' = e then requestsTo e' h ++ [(c, p)] else requestsTo e' h := by
          intro e'
          rw [requestsTo_snoc]
          by_cases hee : e' = e
          · subst hee; simp [hcu, heu]
          · simp [hee, Ne.symm hee]
        have hans : ∀ c' e', answered f c' e' (h ++ [.request c e p]) = answered f c' e' h := by
          intro c' e'
          simp only [answered, hreq, hhand]
          split
          · rw [List.take_append_of_le_length (I.le e')]
          · rfl
        constructor
        · intro c'; simp only [clientUp_snoc, I.cl]
        · intro e'; simp only [engineUp_snoc, I.en]
        · intro e'; rw [hhand, hreq]; have := I.le e'; split <;> simp <;> omega
        · intro e'
          simp only [hreq]
          split
          · rw [I.rc]; simp
          · exact I.rc e'
        · intro e'
          simp only [hreq, hhand]
          split
          · rw [I.bx, List.drop_append_of_le_length (I.le e')]; simp
          · exact I.bx e'
        · exact hmon
        · intro e'
          rw [hmono, I.mo, hreq, hhand]
          split
          · rw [List.take_append_of_le_length (I.le e')]
          · rfl
        · intro c' e'; rw [hans]; exact I.an c' e'
        · exact I.ids
        · intro c' e' hs; rw [hans]; exact I.ax c' e' (stays_snoc hs)
        · intro c' e' hs x hx hxc
          simp only [clientUp_snoc]
          rw [hreq] at hx
          split at hx
          · rcases List.mem_append.1 hx with hx | hx
            · exact I.up c' e' (stays_snoc hs) x hx hxc
            · simp at hx; subst hx; simp at hxc; subst hxc; exact hcu
          · exact I.up c' e' (stays_snoc hs) x hx hxc
      · rw [if_neg heu]
        have hreq : ∀ e', requestsTo e' (h ++ [.request c e p]) = requestsTo e' h := by
          intro e'
          rw [requestsTo_snoc]
          simp only [List.append_right_eq_self, ite_eq_right_iff, List.cons_ne_nil, imp_false]
          rintro ⟨rfl, _, h3⟩; exact heu h3
        have hans : ∀ c' e', answered f c' e' (h ++ [.request c e p]) = answered f c' e' h := fun c' e' => answered_congr f c' e' (hreq e') (hhand e')
        constructor
        · intro c'; simp only [clientUp_snoc, I.cl]
        · intro e'; simp only [engineUp_snoc, I.en]
        · intro e'; rw [hhand, hreq]; exact I.le e'
        · intro e'; rw [hreq]; exact I.rc e'
        · intro e'; rw [hreq, hhand]; exact I.bx e'
        · exact hmon
        · intro e'; rw [hmono, I.mo, hreq, hhand]
        · intro c' e'; rw [hans]; exact I.an c' e'
        · exact I.ids
        · intro c' e' hs; rw [hans]; exact I.ax c' e' (stays_snoc hs)
        · intro c' e' hs x hx hxc
          simp only [clientUp_snoc]
          rw [hreq] at hx
          exact I.up c' e' (stays_snoc hs) x hx hxc
    · rw [if_neg hcu]
      refine inv_quiet f I ?_ ?_ ?_ ?_ ?_ rfl rfl rfl rfl ?_
      · intro c'; simp only [clientUp_snoc, I.cl]
      · intro e; simp only [engineUp_snoc, I.en]
      · intro e; simp [requestsTo_snoc, hcu]
      · intro e; simp [handled_snoc]
      · simp [asked_snoc, hcu]
      · intro c' _ hu; simpa [clientUp_snoc] using hu
  | serve e =>
    simp only [step, I.en]
    have hreq : ∀ e', requestsTo e' (h ++ [.serve e]) = requestsTo e' h := by intro e'; simp [requestsTo_snoc]
    by_cases hgo : engineUp e h = true ∧ handled e h < (requestsTo e h).length
    · obtain ⟨heu, hlt⟩ := hgo
      rw [if_pos heu]
      have hhand : ∀ e', handled e' (h ++ [.serve e]) = if e' = e then handled e' h + 1 else handled e' h := by
        intro e'
        rw [handled_snoc]
        by_cases hee : e' = e
        · subst hee; simp [heu, hlt]
        · simp [hee, Ne.symm hee]
      obtain ⟨x, hx⟩ : ∃ x, (requestsTo e h)[handled e h]? = some x := ⟨_, List.getElem?_eq_getElem hlt⟩
      have hdrop : (requestsTo e h).drop (handled e h) = x :: (requestsTo e h).drop (handled e h + 1) := by
        rw [List.drop_eq_getElem_cons hlt]
        congr 1
        rw [List.getElem?_eq_getElem hlt] at hx
        exact Option.some.inj hx
      have htake : (requestsTo e h).take (handled e h + 1) = (requestsTo e h).take (handled e h) ++ [x] := by
        rw [List.take_succ, hx]; rfl
      have hbox : w.inbox e = ⟨[x.1], x.2⟩ :: ((requestsTo e h).drop (handled e h + 1)).map (fun x => ⟨[x.1], x.2⟩) := by
        rw [I.bx, hdrop]; rfl
      rw [hbox]
      simp only [relayOut_eq, I.cl]
      have hansE : ∀ c', answered f c' e (h ++ [.serve e]) = answered f c' e h ++ (if x.1 = c' then [⟨[e], f e x.2⟩] else []) := by
        intro c'
        simp only [answered, hreq, hhand, if_true]
        rw [htake, List.filter_append, List.map_append]
        congr 1
        by_cases hxc : x.1 = c'
        · simp [hxc]
        · simp [hxc]
      have hansO : ∀ c' e', e' ≠ e → answered f c' e' (h ++ [.serve e]) = answered f c' e' h := by
        intro c' e' hne
        exact answered_congr f c' e' (hreq e') (by rw [hhand, if_neg hne])
      have hmi : ((w.monitor ++ [((.out, ⟨[x.1, e], f e x.2⟩) : Prefix × Msg π)]).filter (fun x => x.1 = .in)).map hubView = (asked (h ++ [.serve e])).map some := by
        rw [List.filter_append, List.map_append, I.mi]; simp [asked_snoc]
      have hmo : ∀ e', ((w.monitor ++ [((.out, ⟨[x.1, e], f e x.2⟩) : Prefix × Msg π)]).filter (fun x => x.1 = .out ∧ (hubView x).map (·.1) = some e')).map hubView = ((requestsTo e' (h ++ [.serve e])).take (handled e' (h ++ [.serve e]))).map (fun x => some (e', x.1)) := by
        intro e'
        rw [List.filter_append, List.map_append, I.mo, hreq, hhand]
        by_cases hee : e' = e
        · subst hee
          rw [if_pos rfl, htake]
          simp [hubView]
        · rw [if_neg hee]
          simp [hubView, Ne.symm hee]
      have hle : ∀ e', handled e' (h ++ [.serve e]) ≤ (requestsTo e' (h ++ [.serve e])).length := by
        intro e'; rw [hhand, hreq]; have := I.le e'; split
        · next hee => subst hee; omega
        · exact this
      have hbx : ∀ e', (if e' = e then ((requestsTo e h).drop (handled e h + 1)).map (fun x => (⟨[x.1], x.2⟩ : Msg π)) else w.inbox e') = ((requestsTo e' (h ++ [.serve e])).drop (handled e' (h ++ [.serve e]))).map (fun x => ⟨[x.1], x.2⟩) := by
        intro e'
        rw [hreq, hhand]
        split
        · next hee => subst hee; rfl
        · exact I.bx e'
      have hup : ∀ c e', stays c (h ++ [.serve e]) → ∀ x ∈ requestsTo e' (h ++ [.serve e]), x.1 = c → clientUp c (h ++ [.serve e]) = true := by
        intro c' e' hs y hy hyc
        simp only [clientUp_snoc]
        rw [hreq] at hy
        exact I.up c' e' (stays_snoc hs) y hy hyc
      by_cases hcu : clientUp x.1 h = true
      · rw [if_pos hcu]
        constructor
        · intro c'; simp only [clientUp_snoc, I.cl]
        · intro e'; simp only [engineUp_snoc, I.en]
        · exact hle
        · intro e'; rw [hreq]; exact I.rc e'
        · exact hbx
        · exact hmi
        · exact hmo
        · intro c' e'
          by_cases hee : e' = e
          · subst hee
            rw [hansE]
            by_cases hxc : c' = x.1
            · subst hxc
              simp only [if_true, List.filter_append]
              refine List.Sublist.append (I.an _ _) ?_
              simp
            · simp only [if_neg hxc, if_neg (Ne.symm hxc), List.append_nil]
              exact I.an c' e'
          · rw [hansO c' e' hee]
            simp only
            split
            · rw [List.filter_append]
              simp [Ne.symm hee]
              simpa using I.an c' e'
            · exact I.an c' e'
        · intro c' m hm
          simp only at hm
          split at hm
          · rcases List.mem_append.1 hm with hm | hm
            · exact I.ids c' m hm
            · simp at hm; exact ⟨e, by rw [hm]⟩
          · exact I.ids c' m hm
        · intro c' e' hs
          have hax := I.ax c' e' (stays_snoc hs)
          by_cases hee : e' = e
          · subst hee
            rw [hansE]
            by_cases hxc : c' = x.1
            · subst hxc
              simp only [if_true, List.filter_append, hax]
              simp
            · simp only [if_neg hxc, if_neg (Ne.symm hxc), List.append_nil]
              exact hax
          · rw [hansO c' e' hee]
            simp only
            split
            · rw [List.filter_append, hax]
              simp [Ne.symm hee]
            · exact hax
        · exact hup
      · rw [if_neg hcu]
        constructor
        · intro c'; simp only [clientUp_snoc, I.cl]
        · intro e'; simp only [engineUp_snoc, I.en]
        · exact hle
        · intro e'; rw [hreq]; exact I.rc e'
        · exact hbx
        · exact hmi
        · exact hmo
        · intro c' e'
          by_cases hee : e' = e
          · subst hee
            rw [hansE]
            exact (I.an c' e').trans (List.sublist_append_left _ _)
          · rw [hansO c' e' hee]; exact I.an c' e'
        · exact I.ids
        · intro c' e' hs
          have hax := I.ax c' e' (stays_snoc hs)
          by_cases hee : e' = e
          · subst hee
            rw [hansE, if_neg, List.append_nil]
            · exact hax
            · intro hxc
              subst hxc
              exact hcu (I.up _ _ (stays_snoc hs) x (List.mem_of_getElem? hx) rfl)
          · rw [hansO c' e' hee]; exact hax
        · exact hup
    · have hhand : ∀ e', handled e' (h ++ [.serve e]) = handled e' h := by
        intro e'
        rw [handled_snoc]
        simp only [ite_eq_right_iff]
        rintro ⟨rfl, h2, h3⟩; exact absurd ⟨h2, h3⟩ hgo
      have hsame : (if engineUp e h = true then match w.inbox e with
          | [] => w
          | m :: r => relayOut { w with inbox := fun x => if x = e then r else w.inbox x } e ⟨m.idents, f e m.payload⟩
        else w) = w := by
        split
        · next heu =>
          have hle : (requestsTo e h).length ≤ handled e h := by
            rcases Nat.lt_or_ge (handled e h) (requestsTo e h).length with h1 | h1
            · exact absurd ⟨heu, h1⟩ hgo
            · exact h1
          have : w.inbox e = [] := by rw [I.bx, List.drop_eq_nil_of_le hle]; rfl
          rw [this]
        · rfl
      rw [hsame]
      refine inv_quiet f I ?_ ?_ hreq hhand ?_ rfl rfl rfl rfl ?_
      · intro c'; simp only [clientUp_snoc, I.cl]
      · intro e'; simp only [engineUp_snoc, I.en]
      · simp [asked_snoc]
      · intro c' _ hu; simpa [clientUp_snoc] using hu

theorem inv {π : Type} (f : Ident → π → π) (h : List (Ev π)) : Inv f h (run f h) := by
  induction h using snoc_induction with
  | h0 => exact inv_init f
  | hs h ev ih => rw [run_snoc]; exact inv_step f ih ev

/-- C50: an engine receives exactly the requests that name it, in the order they were sent, each with the requesting client's identity and nothing else attached. -/
theorem delivered_exactly {π : Type} (f : Ident → π → π) (h : List (Ev π)) (e : Ident) : (run f h).received e = (requestsTo e h).map (fun x => ⟨[x.1], x.2⟩) := (inv f h).rc e

/-- C50: a client whose connection is kept receives, from each engine, exactly the answers to its own requests that the engine handled, in order, with the engine's identity attached. -/
theorem answers_exactly {π : Type} (f : Ident → π → π) (h : List (Ev π)) (c e : Ident) (hs : stays c h) :
    ((run f h).answers c).filter (fun m => m.idents = [e]) = (((requestsTo e h).take (handled e h)).filter (fun x => x.1 = c)).map (fun x => ⟨[e], f e x.2⟩) :=
  (inv f h).ax c e hs

/-- C50: whatever connections are lost, nothing a client receives is anybody else's answer: it is one to a request of its own to that engine, in order and without repetition. -/
theorem answers_only_own {π : Type} (f : Ident → π → π) (h : List (Ev π)) (c : Ident) :
    (∀ m ∈ (run f h).answers c, ∃ e, m.idents = [e]) ∧
      ∀ e, (((run f h).answers c).filter (fun m => m.idents = [e])).Sublist (((requestsTo e h).filter (fun x => x.1 = c)).map (fun x => ⟨[e], f e x.2⟩)) := by
  refine ⟨(inv f h).ids c, fun e => ((inv f h).an c e).trans ?_⟩
  exact ((List.take_sublist _ _).filter _).map _

/-- C50: the hub, at the monitor, sees every request and every reply with the right engine and the right client. -/
theorem hub_sees {π : Type} (f : Ident → π → π) (h : List (Ev π)) :
    ((run f h).monitor.filter (fun x => x.1 = .in)).map hubView = (asked h).map some ∧
      ∀ e, ((run f h).monitor.filter (fun x => x.1 = .out ∧ (hubView x).map (·.1) = some e)).map hubView = ((requestsTo e h).take (handled e h)).map (fun x => some (e, x.1)) :=
  ⟨(inv f h).mi, (inv f h).mo⟩

/-- two clients, two engines; engine 11 comes late, so the request (2 → 11, 5) is lost -/
def exHistory : List (Ev Nat) := [.client 1 true, .client 2 true, .engine 10 true, .request 1 10 3, .request 2 10 4, .request 2 11 5,
  .engine 11 true, .request 1 11 6, .serve 10, .serve 11, .serve 10, .serve 10]

example : stays 1 exHistory ∧ stays 2 exHistory := by
  constructor <;> simp [stays, exHistory]
example : (run (fun _ p => 100 + p) exHistory).received 10 = [⟨[1], 3⟩, ⟨[2], 4⟩] := by decide
example : (run (fun _ p => 100 + p) exHistory).answers 1 = [⟨[10], 103⟩, ⟨[11], 106⟩] := by decide
example : (run (fun _ p => 100 + p) exHistory).answers 2 = [⟨[10], 104⟩] := by decide
example : handled 10 exHistory = 2 := by decide

end IPP.Mux
