import Verif.Launcher.Ssh

/-! # C92: where SSH launchers go; C93: the end of a remote process -/
namespace IPP.Ssh

/-! ## Specification vocabulary -/

/-- `u@h` if there is a user, else `h` -/
def address (user : Option Str) (host : Str) : Str := match user with
  | some u => u ++ '@' :: host
  | none => host

def portText : Option Str → Str
  | some p => ':' :: p
  | none => []

/-- how a host is written: `[user@]host[:port]` -/
def written (user : Option Str) (host : Str) (port : Option Str) : Str := address user host ++ portText port

/-! ## Hosts -/

theorem split1_none (c : Char) (s : Str) (h : c ∉ s) : split1 c s = none := by
  induction s with
  | nil => rfl
  | cons x s ih =>
    have hx : x ≠ c := by rintro rfl; simp at h
    simp only [split1, if_neg hx]
    rw [ih (by intro hh; exact h (by simp [hh]))]
    rfl

theorem split1_some (c : Char) (a b : Str) (h : c ∉ a) : split1 c (a ++ c :: b) = some (a, b) := by
  induction a with
  | nil => simp [split1]
  | cons x a ih =>
    have hx : x ≠ c := by rintro rfl; simp at h
    simp only [List.cons_append, split1, if_neg hx]
    rw [ih (by intro hh; exact h (by simp [hh]))]
    rfl

/-- A host written as `[user@]host[:port]` is understood: user, host and port are what was written. (A host name contains no colon, and no `@` if there is no user; a user name no `@`;
a port no `@`.) -/
theorem parse_written (user : Option Str) (host : Str) (port : Option Str) (hu : ∀ u, user = some u → '@' ∉ u) (hh : ':' ∉ host)
    (hn : user = none → '@' ∉ host ∧ ∀ p, port = some p → '@' ∉ p) :
    parseHost (written user host port) = (user, host, port) := by
  have second : ∀ (x : Option Str), (match split1 ':' (host ++ portText port) with
      | some (h, p) => (x, h, some p)
      | none => (x, host ++ portText port, none)) = (x, host, port) := by
    intro x
    cases port with
    | none => simp [portText, split1_none ':' host hh]
    | some p => simp [portText, split1_some ':' host p hh]
  cases user with
  | some u =>
    have e : written (some u) host port = u ++ '@' :: (host ++ portText port) := by simp [written, address]
    rw [e, parseHost, split1_some '@' u _ (hu u rfl)]
    exact second (some u)
  | none =>
    have e : written none host port = host ++ portText port := rfl
    have hno : '@' ∉ host ++ portText port := by
      obtain ⟨h1, h2⟩ := hn rfl
      cases port with
      | none => simpa [portText] using h1
      | some p => simp [portText, h1, h2 p rfl]
    rw [e, parseHost, split1_none '@' _ hno]
    exact second none

/-- A launcher that is started on a host goes to this host, as this user. -/
theorem start_location (user : Option Str) (host : Str) (h : host ≠ []) (hu : user ≠ some []) : (startLoc user host fresh).location = address user host := by
  cases user with
  | none => simp [startLoc, setHostname, fresh, h, address]
  | some u =>
    have : u ≠ [] := by rintro rfl; exact hu rfl
    simp [startLoc, setHostname, setUser, fresh, h, address, this]

/-! ## The engine set: slots, identifiers, files -/

theorem startOn_ids (e : Entry) (m i : Nat) (ssh scp : List Str) : (startOn e m i ssh scp).1.map (·.id) = (List.range' i m).map (fun k => (e.key, k)) := by
  induction m generalizing i ssh scp with
  | zero => rfl
  | succ m ih =>
    simp only [startOn, List.map_cons, List.range'_succ]
    rw [ih]

theorem startOn_mem (e : Entry) (m i : Nat) (ssh scp : List Str) : ∀ x ∈ (startOn e m i ssh scp).1,
    x.location = (startLoc (parseHost e.key).1 (parseHost e.key).2.1 fresh).location ∧ x.id.1 = e.key ∧ (x.sends = true ↔ x.id.2 = 0) := by
  induction m generalizing i ssh scp with
  | zero => simp [startOn]
  | succ m ih =>
    intro x hx
    simp only [startOn, List.mem_cons] at hx
    rcases hx with rfl | hx
    · simp
    · exact ih _ _ _ x hx

/-- The engines that `start(n)` starts are the first `n` of the configured slots, in the order of the table. -/
theorem start_slots (es : List Entry) (n : Nat) (ssh scp : List Str) :
    (startAll es n ssh scp).1.map (·.id) = (es.flatMap (fun e => (List.range e.n).map (fun i => (e.key, i)))).take n := by
  induction es generalizing n ssh scp with
  | nil => simp [startAll]
  | cons e es ih =>
    simp only [startAll, List.map_append, startOn_ids, ih, List.flatMap_cons, List.take_append, List.length_map, List.length_range, ← List.range_eq_range']
    congr 1
    · rw [← List.map_take, List.take_range, Nat.min_comm]
    · congr 1; omega

/-- Each of them is started on the host, and as the user, that its entry names; the connection files are sent with the first engine of each entry, and with no other. -/
theorem start_where (es : List Entry) (n : Nat) (ssh scp : List Str) : ∀ x ∈ (startAll es n ssh scp).1, ∃ e ∈ es, x.id.1 = e.key ∧ (x.sends = true ↔ x.id.2 = 0) ∧
    ∀ user host port, e.key = written user host port → host ≠ [] → user ≠ some [] → (∀ u, user = some u → '@' ∉ u) → ':' ∉ host →
      (user = none → '@' ∉ host ∧ ∀ p, port = some p → '@' ∉ p) → x.location = address user host := by
  induction es generalizing n ssh scp with
  | nil => simp [startAll]
  | cons e es ih =>
    intro x hx
    simp only [startAll, List.mem_append] at hx
    rcases hx with hx | hx
    · obtain ⟨h1, h2, h3⟩ := startOn_mem _ _ _ _ _ x hx
      refine ⟨e, by simp, h2, h3, ?_⟩
      intro user host port hk hne hue hu hh hn
      rw [h1, hk, parse_written user host port hu hh hn]
      exact start_location user host hne hue
    · obtain ⟨e', he', r⟩ := ih _ _ _ x hx
      exact ⟨e', by simp [he'], r⟩

theorem slash_digits (n : Nat) : '/' ∉ (toString n).toList := by
  intro h
  have : (toString n).toList = Nat.toDigits 10 n := by
    show (Nat.repr n).toList = _
    simp [Nat.repr]
  rw [this] at h
  have hd : ('/' : Char).isDigit = true := Nat.isDigit_of_mem_toDigits (b := 10) (by omega) (by omega) h
  revert hd
  decide

theorem digits_inj (m n : Nat) (h : (toString m).toList = (toString n).toList) : m = n := by
  have hm : (toString m).toList = Nat.toDigits 10 m := by
    show (Nat.repr m).toList = _
    simp [Nat.repr]
  have hn : (toString n).toList = Nat.toDigits 10 n := by
    show (Nat.repr n).toList = _
    simp [Nat.repr]
  rw [hm, hn] at h
  have := congrArg (fun l => Nat.ofDigitChars 10 l 0) h
  simpa [Nat.ofDigitChars_ten_toDigits] using this

theorem identifier_inj (x y : Str × Nat) (h : identifier x = identifier y) : x = y := by
  have key : ∀ (a b p q : Str), '/' ∉ p → '/' ∉ q → a ++ '/' :: p = b ++ '/' :: q → a = b ∧ p = q := by
    intro a b p q hp hq e
    have e' : p.reverse ++ '/' :: a.reverse = q.reverse ++ '/' :: b.reverse := by
      have := congrArg List.reverse e
      simpa using this
    have s1 := split1_some '/' p.reverse a.reverse (by simpa using hp)
    have s2 := split1_some '/' q.reverse b.reverse (by simpa using hq)
    rw [e', s2] at s1
    simp only [Option.some.injEq, Prod.mk.injEq, List.reverse_inj] at s1
    exact ⟨s1.2.symm, s1.1.symm⟩
  obtain ⟨h1, h2⟩ := key x.1 y.1 _ _ (slash_digits _) (slash_digits _) h
  exact Prod.ext h1 (digits_inj _ _ h2)

/-- No two of the engines have the same identifier, so that none takes the place of another in the set (the keys of the table are distinct, as in any dict). -/
theorem identifiers_distinct (es : List Entry) (hd : (es.map (·.key)).Nodup) (n : Nat) (ssh scp : List Str) :
    ((startAll es n ssh scp).1.map (fun x => identifier x.id)).Nodup := by
  have e : (startAll es n ssh scp).1.map (fun x => identifier x.id) = ((startAll es n ssh scp).1.map (·.id)).map identifier := by simp
  rw [e, start_slots]
  have hn : (es.flatMap (fun e => (List.range e.n).map (fun i => (e.key, i)))).Nodup := by
    clear e
    induction es with
    | nil => simp
    | cons a es ih =>
      simp only [List.map_cons, List.nodup_cons] at hd
      simp only [List.flatMap_cons, List.nodup_append]
      refine ⟨?_, ih hd.2, ?_⟩
      · rw [List.Nodup, List.pairwise_map]
        refine List.Pairwise.imp ?_ (List.nodup_range (n := a.n))
        intro i j hij h
        exact hij (by simpa using h)
      · intro x hx y hy hxy
        subst hxy
        simp only [List.mem_map] at hx
        obtain ⟨i, _, rfl⟩ := hx
        simp only [List.mem_flatMap, List.mem_map] at hy
        obtain ⟨b, hb, j, _, hj⟩ := hy
        exact hd.1 (by simp only [List.mem_map]; exact ⟨b, hb, by simpa using congrArg Prod.fst hj⟩)
  have hn2 := hn.sublist (List.take_sublist n _)
  rw [List.Nodup, List.pairwise_map]
  exact List.Pairwise.imp (fun hij h => hij (identifier_inj _ _ h)) hn2

/-! ## Ports -/

/-- What an entry asks for: its own arguments (or those of the set), and its port unless they name one. -/
def wantedSsh (cfg : List Str) (e : Entry) : List Str := withPort sshFlag (parseHost e.key).2.2 (e.ssh.getD cfg)
def wantedScp (cfg : List Str) (e : Entry) : List Str := withPort scpFlag (parseHost e.key).2.2 (e.scp.getD cfg)

/-- Spelled out: a port in the entry becomes `-p port` for ssh and `-P port` for scp, after the other arguments; arguments that name a port already are left alone; without a port nothing is added. -/
theorem wanted_spelled (cfg own : List Str) (e : Entry) (p : Str) :
    ((parseHost e.key).2.2 = some p → e.ssh = none → "-p".toList ∉ cfg → wantedSsh cfg e = cfg ++ ["-p".toList, p]) ∧
    ((parseHost e.key).2.2 = some p → e.scp = none → "-P".toList ∉ cfg → wantedScp cfg e = cfg ++ ["-P".toList, p]) ∧
    ((parseHost e.key).2.2 = some p → e.ssh = some own → "-p".toList ∉ own → wantedSsh cfg e = own ++ ["-p".toList, p]) ∧
    ((parseHost e.key).2.2 = some p → e.scp = some own → "-P".toList ∉ own → wantedScp cfg e = own ++ ["-P".toList, p]) ∧
    (e.ssh = some own → "-p".toList ∈ own → wantedSsh cfg e = own) ∧ (e.scp = some own → "-P".toList ∈ own → wantedScp cfg e = own) ∧
    ((parseHost e.key).2.2 = none → wantedSsh cfg e = e.ssh.getD cfg ∧ wantedScp cfg e = e.scp.getD cfg) := by
  have hs : "-p".toList = sshFlag := rfl
  have hp : "-P".toList = scpFlag := rfl
  rw [hs, hp]
  refine ⟨fun h1 h2 h3 => ?_, fun h1 h2 h3 => ?_, fun h1 h2 h3 => ?_, fun h1 h2 h3 => ?_, fun h1 h2 => ?_, fun h1 h2 => ?_, fun h1 => ?_⟩
  · simp [wantedSsh, withPort, h1, h2, h3]
  · simp [wantedScp, withPort, h1, h2, h3]
  · simp [wantedSsh, withPort, h1, h2, h3]
  · simp [wantedScp, withPort, h1, h2, h3]
  · cases h : (parseHost e.key).2.2 <;> simp [wantedSsh, withPort, h, h1, h2]
  · cases h : (parseHost e.key).2.2 <;> simp [wantedScp, withPort, h, h1, h2]
  · simp [wantedSsh, wantedScp, withPort, h1]

theorem withPort_idem (f : Str) (p : Option Str) (a : List Str) : withPort f p (withPort f p a) = withPort f p a := by
  cases p with
  | none => rfl
  | some p =>
    by_cases h : f ∈ a
    · simp [withPort, h]
    · simp [withPort, h]

theorem startOn_args (e : Entry) (m i : Nat) (ssh scp : List Str) :
    (∀ x ∈ (startOn e m i ssh scp).1, x.sshArgs = withPort sshFlag (parseHost e.key).2.2 ssh ∧ x.scpArgs = withPort scpFlag (parseHost e.key).2.2 scp) ∧
    ((startOn e m i ssh scp).2.1 = if m = 0 then ssh else withPort sshFlag (parseHost e.key).2.2 ssh) ∧
    ((startOn e m i ssh scp).2.2 = if m = 0 then scp else withPort scpFlag (parseHost e.key).2.2 scp) := by
  induction m generalizing i ssh scp with
  | zero => simp [startOn]
  | succ m ih =>
    obtain ⟨h1, h2, h3⟩ := ih (i + 1) (withPort sshFlag (parseHost e.key).2.2 ssh) (withPort scpFlag (parseHost e.key).2.2 scp)
    refine ⟨fun x hx => ?_, ?_, ?_⟩
    · simp only [startOn, List.mem_cons] at hx
      rcases hx with rfl | hx
      · simp
      · obtain ⟨a, b⟩ := h1 x hx
        rw [withPort_idem] at a b
        exact ⟨a, b⟩
    · simp only [startOn, h2, withPort_idem]
      by_cases hm : m = 0 <;> simp [hm]
    · simp only [startOn, h3, withPort_idem]
      by_cases hm : m = 0 <;> simp [hm]

/-- If all entries without arguments of their own name the same port, or all name none (or the configured arguments name one, which then counts for all), every engine is reached with the arguments and the port that its entry asks for. -/
theorem ports_partial (es : List Entry) (n : Nat) (cs cp : List Str)
    (hs : (∀ e ∈ es, ∀ e' ∈ es, e.ssh = none → e'.ssh = none → (parseHost e.key).2.2 = (parseHost e'.key).2.2) ∨ sshFlag ∈ cs)
    (hp : (∀ e ∈ es, ∀ e' ∈ es, e.scp = none → e'.scp = none → (parseHost e.key).2.2 = (parseHost e'.key).2.2) ∨ scpFlag ∈ cp) :
    ∀ x ∈ (startAll es n cs cp).1, ∃ e ∈ es, x.id.1 = e.key ∧ x.sshArgs = wantedSsh cs e ∧ x.scpArgs = wantedScp cp e := by
  -- `cur` is the list of the set, `cs` what was configured
  have key : ∀ (es : List Entry) (n : Nat) (us up : List Str),
      (∀ e ∈ es, e.ssh = none → withPort sshFlag (parseHost e.key).2.2 us = withPort sshFlag (parseHost e.key).2.2 cs) →
      (∀ e ∈ es, e.scp = none → withPort scpFlag (parseHost e.key).2.2 up = withPort scpFlag (parseHost e.key).2.2 cp) →
      ((∀ e ∈ es, ∀ e' ∈ es, e.ssh = none → e'.ssh = none → (parseHost e.key).2.2 = (parseHost e'.key).2.2) ∨ sshFlag ∈ cs ∧ us = cs) →
      ((∀ e ∈ es, ∀ e' ∈ es, e.scp = none → e'.scp = none → (parseHost e.key).2.2 = (parseHost e'.key).2.2) ∨ scpFlag ∈ cp ∧ up = cp) →
      ∀ x ∈ (startAll es n us up).1, ∃ e ∈ es, x.id.1 = e.key ∧ x.sshArgs = wantedSsh cs e ∧ x.scpArgs = wantedScp cp e := by
    intro es
    induction es with
    | nil => intro n us up _ _ _ _ x hx; simp [startAll] at hx
    | cons e es ih =>
      intro n us up h1 h2 h3 h4 x hx
      simp only [startAll, List.mem_append] at hx
      obtain ⟨a1, a2, a3⟩ := startOn_args e (min e.n n) 0 (e.ssh.getD us) (e.scp.getD up)
      rcases hx with hx | hx
      · obtain ⟨_, hid, _⟩ := startOn_mem _ _ _ _ _ x hx
        obtain ⟨b1, b2⟩ := a1 x hx
        refine ⟨e, by simp, hid, ?_, ?_⟩
        · rw [b1, wantedSsh]
          cases he : e.ssh with
          | some l => rfl
          | none => exact h1 e (by simp) he
        · rw [b2, wantedScp]
          cases he : e.scp with
          | some l => rfl
          | none => exact h2 e (by simp) he
      · refine (ih _ _ _ ?_ ?_ ?_ ?_ x hx).imp (fun e' he' => ⟨by simp [he'.1], he'.2⟩)
        · intro e' he' hn
          cases he : e.ssh with
          | some l => simpa using h1 e' (by simp [he']) hn
          | none =>
            rw [he, Option.getD_none] at a2
            simp only [Option.isSome_none, Bool.false_eq_true, if_false, Option.getD_none, a2]
            by_cases hm : min e.n n = 0
            · rw [if_pos hm]; exact h1 e' (by simp [he']) hn
            · rw [if_neg hm]
              rcases h3 with h3 | h3
              · rw [h3 e' (by simp [he']) e (by simp) hn he, withPort_idem]
                exact h1 e (by simp) he
              · obtain ⟨hf, rfl⟩ := h3
                have : withPort sshFlag (parseHost e.key).2.2 us = us := by
                  cases (parseHost e.key).2.2 <;> simp [withPort, hf]
                rw [this]
        · intro e' he' hn
          cases he : e.scp with
          | some l => simpa using h2 e' (by simp [he']) hn
          | none =>
            rw [he, Option.getD_none] at a3
            simp only [Option.isSome_none, Bool.false_eq_true, if_false, Option.getD_none, a3]
            by_cases hm : min e.n n = 0
            · rw [if_pos hm]; exact h2 e' (by simp [he']) hn
            · rw [if_neg hm]
              rcases h4 with h4 | h4
              · rw [h4 e' (by simp [he']) e (by simp) hn he, withPort_idem]
                exact h2 e (by simp) he
              · obtain ⟨hf, rfl⟩ := h4
                have : withPort scpFlag (parseHost e.key).2.2 up = up := by
                  cases (parseHost e.key).2.2 <;> simp [withPort, hf]
                rw [this]
        · rcases h3 with h3 | ⟨hf, rfl⟩
          · exact .inl (fun a ha b hb => h3 a (by simp [ha]) b (by simp [hb]))
          · refine .inr ⟨hf, ?_⟩
            cases he : e.ssh with
            | some l => rfl
            | none =>
              rw [he, Option.getD_none] at a2
              simp only [Option.isSome_none, Bool.false_eq_true, if_false, Option.getD_none, a2]
              by_cases hm : min e.n n = 0
              · rw [if_pos hm]
              · rw [if_neg hm]
                cases (parseHost e.key).2.2 <;> simp [withPort, hf]
        · rcases h4 with h4 | ⟨hf, rfl⟩
          · exact .inl (fun a ha b hb => h4 a (by simp [ha]) b (by simp [hb]))
          · refine .inr ⟨hf, ?_⟩
            cases he : e.scp with
            | some l => rfl
            | none =>
              rw [he, Option.getD_none] at a3
              simp only [Option.isSome_none, Bool.false_eq_true, if_false, Option.getD_none, a3]
              by_cases hm : min e.n n = 0
              · rw [if_pos hm]
              · rw [if_neg hm]
                cases (parseHost e.key).2.2 <;> simp [withPort, hf]
  exact key es n cs cp (fun _ _ _ => rfl) (fun _ _ _ => rfl) (hs.imp id (fun h => ⟨h, rfl⟩)) (hp.imp id (fun h => ⟨h, rfl⟩))

/-- Two hosts with different ports, and one without: the engines on the second and the third are looked for at the port of the first, because all launchers hold the same list of arguments. -/
theorem ports_violated :
    let es : List Entry := [⟨"a:2222".toList, 1, none, none⟩, ⟨"b:3333".toList, 1, none, none⟩, ⟨"c".toList, 1, none, none⟩]
    (startAll es 3 [] []).1.map (fun x => (x.location, x.sshArgs)) =
      [("a".toList, ["-p".toList, "2222".toList]), ("b".toList, ["-p".toList, "2222".toList]), ("c".toList, ["-p".toList, "2222".toList])] := by
  decide +kernel

/-- ... and the set keeps that port: started again with other hosts, it uses it for them too. -/
theorem ports_kept_violated :
    let first := startAll [⟨"a:2222".toList, 1, none, none⟩] 1 [] []
    (startAll [⟨"b".toList, 1, none, none⟩] 1 first.2.1 first.2.2).1.map (fun x => (x.location, x.sshArgs)) = [("b".toList, ["-p".toList, "2222".toList])] := by
  decide +kernel

/-! ## Saved and restored -/

/-- a launcher after assignments by the user -/
def after (h : List Set) : Loc := h.foldl assign fresh

/-- no assignment of `location`, none of an empty user -/
def Plain (h : List Set) : Prop := ∀ a ∈ h, match a with
  | .hostname _ => True
  | .user u => u ≠ []
  | .location _ => False

/-- the traits may be restored in either order -/
theorem restore_order (l : Loc) : restore l = setHostname l.hostname (setUser l.user fresh) := by
  obtain ⟨h, u, loc⟩ := l
  simp only [restore, setHostname, setUser, fresh]
  by_cases hh : h = [] <;> by_cases hu : u = [] <;> simp [hh, hu]

/-- A launcher that knows its host from `hostname` and `user`, in any order and however often they were set, goes to the same place after it was saved and restored. -/
theorem restore_location_partial (h : List Set) (hp : Plain h) : (restore (after h)).location = (after h).location := by
  have inv : ∀ (h : List Set) (l : Loc), Plain h → (l.location = if l.user = [] then l.hostname else l.user ++ '@' :: l.hostname) →
      (h.foldl assign l).location = if (h.foldl assign l).user = [] then (h.foldl assign l).hostname else (h.foldl assign l).user ++ '@' :: (h.foldl assign l).hostname := by
    intro h
    induction h with
    | nil => intro l _ hl; exact hl
    | cons a h ih =>
      intro l hp hl
      simp only [List.foldl_cons]
      apply ih _ (fun b hb => hp b (by simp [hb]))
      have := hp a (by simp)
      cases a with
      | hostname x =>
        simp only [assign, setHostname]
        by_cases hx : x = l.hostname
        · simp [hx, hl]
        · by_cases hu : l.user = [] <;> simp [hx, hu]
      | user u =>
        simp only [assign, setUser]
        by_cases hx : u = l.user
        · simp [hx, hl]
        · simp only [hx, if_false]
          have hu : u ≠ [] := this
          simp [hu]
      | location x => exact absurd this (by simp)
  have hi := inv h fresh hp (by simp [fresh])
  change (after h).location = if (after h).user = [] then (after h).hostname else (after h).user ++ '@' :: (after h).hostname at hi
  rw [hi]
  simp only [restore, setHostname, setUser, fresh]
  by_cases hh : (after h).hostname = [] <;> by_cases hu : (after h).user = [] <;> simp [hh, hu]

/-- A launcher whose `location` was set directly goes nowhere after it was restored. -/
theorem restore_location_violated : (after [.location "me@there".toList]).location = "me@there".toList ∧ (restore (after [.location "me@there".toList])).location = [] := by
  decide +kernel

/-- With the user set back to none, the address begins with `@`. -/
theorem empty_user_violated : (after [.hostname "there".toList, .user "me".toList, .user []]).location = "@there".toList := by
  decide +kernel

/-! ## The end of a remote process -/

theorem wrun_snoc (h : List WEv) (e : WEv) : wrun (h ++ [e]) = wstep (wrun h) e := by simp [wrun, List.foldl_append]

structure WInv (h : List WEv) (w : W) : Prop where
  one : w.announced.length ≤ 1
  run : w.running = w.announced.isEmpty
  ended : w.th = .ended ↔ w.announced ≠ []
  flagged : w.flag = true → w.proc ≠ .running
  sched : ∀ c, w.th = .scheduled c → w.proc ≠ .running ∧ (c = none ∨ c = some (-1))
  ann : ∀ c ∈ w.announced, w.proc ≠ .running ∧ (c = none ∨ c = some (-1))
  real : w.proc ≠ .running ↔ ∃ c, WEv.exit c ∈ h

theorem wInv (h : List WEv) : WInv h (wrun h) := by
  induction h using IPP.Launcher.snoc_induction with
  | h0 => constructor <;> simp [wrun]
  | hs h e ih =>
    rw [wrun_snoc]
    generalize wrun h = w at ih
    obtain ⟨proc, th, flag, ann, running⟩ := w
    obtain ⟨i1, i2, i3, i4, i5, i6, i7⟩ := ih
    simp only at i1 i2 i3 i4 i5 i6 i7
    cases e with
    | exit c =>
      by_cases hp : proc = .running
      · simp only [wstep, hp, if_true]
        refine ⟨i1, i2, i3, by simp, ?_, ?_, by simp⟩
        · intro d hd; exact absurd hp (i5 d hd).1
        · intro d hd; exact absurd hp (i6 d hd).1
      · simp only [wstep, hp, if_false]
        exact ⟨i1, i2, i3, i4, i5, i6, by simp [hp]⟩
    | poll link =>
      have i7' : proc ≠ .running ↔ ∃ c, WEv.exit c ∈ h ++ [WEv.poll link] := by simpa using i7
      cases th with
      | waiting =>
        simp only [wstep]
        have hne : ann = [] := by
          apply Classical.byContradiction
          intro hne
          exact absurd (i3.2 hne) (by simp)
        subst hne
        simp only [List.isEmpty_nil] at i2
        subst i2
        by_cases hf : flag = true
        · simp only [hf, Bool.true_or, if_true]
          refine ⟨by simp, by simp, by simp, fun _ => i4 hf, ?_, by simp, i7'⟩
          intro c hc
          cases hc
          exact ⟨i4 hf, .inl rfl⟩
        · have hf' : flag = false := by simpa using hf
          subst hf'
          simp only [Bool.not_true, Bool.or_self, Bool.false_eq_true, if_false]
          cases link with
          | false => simp only [waitOne]; exact ⟨by simp, by simp, by simp, by simp, by simp, by simp, i7'⟩
          | true =>
            cases hproc : proc with
            | running => subst hproc; simp only [waitOne, waitpid]; exact ⟨by simp, by simp, by simp, by simp, by simp, by simp, i7'⟩
            | exited x =>
              subst hproc
              simp only [waitOne, waitpid]
              refine ⟨by simp, by simp, by simp, by simp, ?_, by simp, i7'⟩
              intro c hc
              have hc' : some (-1) = c := by simpa using hc
              subst hc'
              exact ⟨by simp, .inr rfl⟩
      | scheduled c => exact ⟨i1, i2, i3, i4, i5, i6, i7'⟩
      | ended => exact ⟨i1, i2, i3, i4, i5, i6, i7'⟩
      | crashed => exact ⟨i1, i2, i3, i4, i5, i6, i7'⟩
    | callback =>
      have i7' : proc ≠ .running ↔ ∃ c, WEv.exit c ∈ h ++ [WEv.callback] := by simpa using i7
      cases th with
      | scheduled c =>
        simp only [wstep]
        have hne : ann = [] := by
          apply Classical.byContradiction
          intro hne
          exact absurd (i3.2 hne) (by simp)
        subst hne
        simp only [List.isEmpty_nil] at i2
        subst i2
        refine ⟨by simp, by simp, by simp, i4, by simp, ?_, i7'⟩
        intro d hd
        simp only [if_true, List.nil_append, List.mem_singleton] at hd
        subst hd
        exact i5 d rfl
      | waiting => exact ⟨i1, i2, i3, i4, i5, i6, i7'⟩
      | ended => exact ⟨i1, i2, i3, i4, i5, i6, i7'⟩
      | crashed => exact ⟨i1, i2, i3, i4, i5, i6, i7'⟩
    | join link =>
      have i7' : proc ≠ .running ↔ ∃ c, WEv.exit c ∈ h ++ [WEv.join link] := by simpa using i7
      cases link with
      | false => simp only [wstep, waitOne]; exact ⟨i1, i2, i3, i4, i5, i6, i7'⟩
      | true =>
        cases hproc : proc with
        | running => subst hproc; simp only [wstep, waitOne, waitpid]; exact ⟨i1, i2, i3, i4, i5, i6, i7'⟩
        | exited x => subst hproc; simp only [wstep, waitOne, waitpid]; exact ⟨i1, i2, i3, by simp, i5, i6, i7'⟩

/-- The end of a remote process is announced at most once, and only after it has ended, whatever happens to the connection. -/
theorem announced_sound (h : List WEv) : (wrun h).announced.length ≤ 1 ∧ ((wrun h).announced ≠ [] → ∃ c, WEv.exit c ∈ h) := by
  have i := wInv h
  refine ⟨i.one, fun hne => ?_⟩
  apply i.real.1
  obtain ⟨c, hc⟩ := List.exists_mem_of_ne_nil _ hne
  exact (i.ann c hc).1

/-- no look at the process failed -/
def LinkUp (h : List WEv) : Prop := WEv.poll false ∉ h

/-- If ssh never fails while waiting, an ended process is announced as soon as the waiting thread has looked once more and the loop has run. -/
theorem announced_live_partial (h : List WEv) (hl : LinkUp h) (hx : ∃ c, WEv.exit c ∈ h) : (wrun (h ++ [.poll true, .callback])).announced ≠ [] := by
  have nc : ∀ h : List WEv, LinkUp h → (wrun h).th ≠ .crashed := by
    intro h
    induction h using IPP.Launcher.snoc_induction with
    | h0 => intro _; simp [wrun]
    | hs h e ih =>
      intro hl
      have ih := ih (fun hh => hl (by simp [hh]))
      have he : e ≠ .poll false := by rintro rfl; exact hl (by simp)
      rw [wrun_snoc]
      generalize wrun h = w at ih
      obtain ⟨proc, th, flag, ann, running⟩ := w
      simp only at ih
      cases e with
      | exit c => by_cases hp : proc = .running <;> simpa [wstep, hp] using ih
      | poll link =>
        cases link with
        | false => exact absurd rfl he
        | true =>
          cases th with
          | waiting =>
            simp only [wstep]
            by_cases hf : (flag || !running) = true
            · simp [hf]
            · simp only [hf]
              cases proc <;> simp [waitOne, waitpid]
          | scheduled c => simp [wstep]
          | ended => simp [wstep]
          | crashed => exact absurd rfl ih
      | callback => cases th <;> simp_all [wstep]
      | join link =>
        simp only [wstep]
        cases waitOne link proc <;> simpa using ih
  have i := wInv h
  have hc := nc h hl
  have hr := i.real.2 hx
  have e : wrun (h ++ [.poll true, .callback]) = wstep (wstep (wrun h) (.poll true)) .callback := by simp [wrun, List.foldl_append]
  rw [e]
  generalize wrun h = w at i hc hr
  obtain ⟨proc, th, flag, ann, running⟩ := w
  simp only at hc hr
  have hrun := i.run
  have hend := i.ended
  simp only at hrun hend
  cases th with
  | crashed => exact absurd rfl hc
  | ended => simpa [wstep] using hend.1 rfl
  | scheduled c =>
    have hne : ann = [] := by
      apply Classical.byContradiction
      intro hne
      exact absurd (hend.2 hne) (by simp)
    subst hne
    simp only [List.isEmpty_nil] at hrun
    subst hrun
    simp [wstep]
  | waiting =>
    have hne : ann = [] := by
      apply Classical.byContradiction
      intro hne
      exact absurd (hend.2 hne) (by simp)
    subst hne
    simp only [List.isEmpty_nil] at hrun
    subst hrun
    cases proc with
    | running => exact absurd rfl hr
    | exited x => cases flag <;> simp [wstep, waitOne, waitpid]

/-- One failure of ssh while waiting ends the waiting for good: whatever happens afterwards, the end of the process is never announced and the launcher
counts as running for ever. -/
theorem link_failure_violated (c : Int) (h : List WEv) :
    (wrun ([.poll false, .exit c] ++ h)).announced = [] ∧ (wrun ([.poll false, .exit c] ++ h)).running = true ∧ (wrun ([.poll false, .exit c] ++ h)).proc = .exited (some c) := by
  have key : ∀ (h : List WEv) (w : W), w.th = .crashed → w.announced = [] → w.running = true → w.proc = .exited (some c) →
      (h.foldl wstep w).announced = [] ∧ (h.foldl wstep w).running = true ∧ (h.foldl wstep w).proc = .exited (some c) := by
    intro h
    induction h with
    | nil => intro w _ h2 h3 h4; exact ⟨h2, h3, h4⟩
    | cons e h ih =>
      intro w h1 h2 h3 h4
      simp only [List.foldl_cons]
      cases e with
      | exit d => simp only [wstep, h4]; exact ih _ h1 h2 h3 h4
      | poll link => simp only [wstep, h1]; exact ih _ h1 h2 h3 h4
      | callback => simp only [wstep, h1]; exact ih _ h1 h2 h3 h4
      | join link =>
        simp only [wstep]
        cases waitOne link w.proc with
        | code d => exact ih _ h1 h2 h3 h4
        | timeout => exact ih _ h1 h2 h3 h4
        | failed => exact ih _ h1 h2 h3 h4
  have e : wrun ([.poll false, .exit c] ++ h) = h.foldl wstep ⟨.exited (some c), .crashed, false, [], true⟩ := by
    simp [wrun, wstep, waitOne]
  rw [e]
  exact key h _ rfl rfl rfl rfl

/-- The exit code is never known: whatever it was, what is announced is -1 (or None after `join()`); so an SSH engine that ends well counts as failed. -/
theorem exit_code_violated (h : List WEv) : ∀ x ∈ (wrun h).announced, x = none ∨ x = some (-1) := fun x hx => ((wInv h).ann x hx).2

/-- a process that ends with 0 is announced with -1 -/
example : (wrun [.poll true, .exit 0, .poll true, .callback, .callback]).announced = [some (-1)] := by decide

/-- ports: all entries name the same -/
example : let es : List Entry := [⟨"u@a:22".toList, 2, none, none⟩, ⟨"b:22".toList, 1, none, none⟩, ⟨"c".toList, 1, some ["-v".toList], some []⟩]
    (startAll es 4 ["-x".toList] []).1.map (fun x => (x.location, x.sshArgs, x.sends)) =
      [("u@a".toList, ["-x".toList, "-p".toList, "22".toList], true), ("u@a".toList, ["-x".toList, "-p".toList, "22".toList], false),
       ("b".toList, ["-x".toList, "-p".toList, "22".toList], true), ("c".toList, ["-v".toList], true)] := by decide +kernel

example : Plain [.hostname "a".toList, .user "u".toList, .hostname "b".toList] ∧ (after [.hostname "a".toList, .user "u".toList, .hostname "b".toList]).location = "u@b".toList := by
  refine ⟨by intro a ha; simp at ha; rcases ha with rfl | rfl | rfl <;> simp, by decide +kernel⟩

end IPP.Ssh
