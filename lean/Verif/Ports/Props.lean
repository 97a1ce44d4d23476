import Verif.Ports.Model

/-! # C48: ports are used at most once, in order, from the configured ranges -/
namespace IPP.Ports

/-! ## Specification: how a list of ports is written -/

/-- decimal notation -/
def showNat (n : Nat) : List Char := if n < 10 then [Char.ofNat (48 + n)] else showNat (n / 10) ++ [Char.ofNat (48 + n % 10)]

/-- an entry of a port list: one port, or an interval (both ends included) -/
inductive Part where
  | one (p : Nat)
  | upto (a b : Nat)
  deriving DecidableEq, Repr

def Part.write : Part → List Char
  | .one p => showNat p
  | .upto a b => showNat a ++ '-' :: showNat b

def Part.ports : Part → List Int
  | .one p => [(p : Int)]
  | .upto a b => (List.range (b + 1 - a)).map (fun k => ((a + k : Nat) : Int))

/-- entries joined with commas -/
def writeParts : List Part → List Char
  | [] => []
  | [p] => p.write
  | p :: ps => p.write ++ ',' :: writeParts ps

/-! ## parsing what was written -/

theorem digitVal_ofNat (n : Nat) (h : n < 10) : digitVal (Char.ofNat (48 + n)) = some n := by
  have : n = 0 ∨ n = 1 ∨ n = 2 ∨ n = 3 ∨ n = 4 ∨ n = 5 ∨ n = 6 ∨ n = 7 ∨ n = 8 ∨ n = 9 := by omega
  rcases this with rfl | rfl | rfl | rfl | rfl | rfl | rfl | rfl | rfl | rfl <;> rfl

theorem digit_ne (n : Nat) (h : n < 10) : Char.ofNat (48 + n) ≠ '-' ∧ Char.ofNat (48 + n) ≠ '+' ∧ Char.ofNat (48 + n) ≠ ',' := by
  have : n = 0 ∨ n = 1 ∨ n = 2 ∨ n = 3 ∨ n = 4 ∨ n = 5 ∨ n = 6 ∨ n = 7 ∨ n = 8 ∨ n = 9 := by omega
  rcases this with rfl | rfl | rfl | rfl | rfl | rfl | rfl | rfl | rfl | rfl <;> decide

theorem showNat_ne_nil (n : Nat) : showNat n ≠ [] := by
  unfold showNat
  split <;> simp

theorem showNat_chars (n : Nat) : ∀ c ∈ showNat n, c ≠ '-' ∧ c ≠ '+' ∧ c ≠ ',' := by
  induction n using Nat.strongRecOn with
  | _ n ih =>
    unfold showNat
    split
    · rename_i h
      intro c hc
      simp only [List.mem_singleton] at hc
      subst hc
      exact digit_ne n h
    · rename_i h
      intro c hc
      simp only [List.mem_append, List.mem_singleton] at hc
      rcases hc with hc | rfl
      · exact ih (n / 10) (by omega) c hc
      · exact digit_ne (n % 10) (by omega)

theorem parseDigits_append (l : List Char) : ∀ (k : List Char) (acc : Nat), parseDigits (l ++ k) acc = (parseDigits l acc).bind (parseDigits k) := by
  induction l with
  | nil => intro k acc; rfl
  | cons c l ih =>
    intro k acc
    simp only [List.cons_append, parseDigits]
    cases digitVal c with
    | none => rfl
    | some d => exact ih k _

theorem parseDigits_show (n : Nat) : parseDigits (showNat n) 0 = some n := by
  induction n using Nat.strongRecOn with
  | _ n ih =>
    unfold showNat
    split
    · rename_i h
      simp [parseDigits, digitVal_ofNat n h]
    · rename_i h
      rw [parseDigits_append, ih (n / 10) (by omega)]
      simp only [Option.bind_some, parseDigits, digitVal_ofNat (n % 10) (by omega)]
      congr 1
      omega

theorem parseInt_show (n : Nat) : parseInt (showNat n) = some (n : Int) := by
  have h1 := parseDigits_show n
  have h2 := showNat_chars n
  cases hs : showNat n with
  | nil => exact absurd hs (showNat_ne_nil n)
  | cons c cs =>
    rw [hs] at h1 h2
    have := h2 c (by simp)
    simp [parseInt, this.1, this.2.1, h1]

theorem partition_none (sep : Char) (l : List Char) (h : sep ∉ l) : partition sep l = (l, []) := by
  induction l with
  | nil => rfl
  | cons c l ih =>
    simp only [List.mem_cons, not_or] at h
    simp [partition, Ne.symm h.1, ih h.2]

theorem partition_at (sep : Char) (l k : List Char) (h : sep ∉ l) : partition sep (l ++ sep :: k) = (l, k) := by
  induction l with
  | nil => simp [partition]
  | cons c l ih =>
    simp only [List.mem_cons, not_or] at h
    simp [partition, Ne.symm h.1, ih h.2]

theorem split_none (sep : Char) (l : List Char) (h : sep ∉ l) : split sep l = [l] := by
  induction l with
  | nil => rfl
  | cons c l ih =>
    simp only [List.mem_cons, not_or] at h
    simp [split, Ne.symm h.1, ih h.2]

theorem split_at (sep : Char) (l k : List Char) (h : sep ∉ l) : split sep (l ++ sep :: k) = l :: split sep k := by
  induction l with
  | nil => simp [split]
  | cons c l ih =>
    simp only [List.mem_cons, not_or] at h
    simp [split, Ne.symm h.1, ih h.2]

theorem parsePart_write (p : Part) : parsePart p.write = some p.ports := by
  cases p with
  | one n =>
    have hp := partition_none '-' (showNat n) (fun h => (showNat_chars n _ h).1 rfl)
    simp [Part.write, parsePart, hp, parseInt_show, Part.ports]
  | upto a b =>
    have hp := partition_at '-' (showNat a) (showNat b) (fun h => (showNat_chars a _ h).1 rfl)
    simp only [Part.write, parsePart, hp, parseInt_show, showNat_ne_nil, if_false, Part.ports, rangeTo]
    congr 1
    have : ((b : Int) + 1 - a).toNat = b + 1 - a := by omega
    rw [this]
    apply List.map_congr_left
    intro k _
    omega

theorem write_no_comma (p : Part) : ',' ∉ p.write := by
  cases p with
  | one n => exact fun h => (showNat_chars n _ h).2.2 rfl
  | upto a b =>
    simp only [Part.write, List.mem_append, List.mem_cons, not_or]
    refine ⟨fun h => (showNat_chars a _ h).2.2 rfl, by decide, fun h => (showNat_chars b _ h).2.2 rfl⟩

/-- C48: a written list of ports and intervals is read as exactly these ports, in this order. -/
theorem parse_written (ps : List Part) (h : ps ≠ []) : parsePortRange (writeParts ps) = some (ps.flatMap Part.ports) := by
  have key : (split ',' (writeParts ps)).mapM parsePart = some (ps.map Part.ports) := by
    induction ps with
    | nil => exact absurd rfl h
    | cons p ps ih =>
      cases ps with
      | nil =>
        simp only [writeParts]
        rw [split_none _ _ (write_no_comma p)]
        simp [parsePart_write]
      | cons q qs =>
        simp only [writeParts]
        rw [split_at _ _ _ (write_no_comma p), List.mapM_cons, parsePart_write, ih (by simp)]
        rfl
  simp [parsePortRange, key, List.flatMap_def]

/-- C48: accepted iff every port is in 1..65536. -/
theorem validate_written (ps : List Part) (h : ps ≠ []) :
    validate (writeParts ps) = if ∀ p ∈ ps.flatMap Part.ports, 1 ≤ p ∧ p ≤ 65536 then some (ps.flatMap Part.ports) else none := by
  simp only [validate, parse_written ps h]
  by_cases hc : ∀ p ∈ ps.flatMap Part.ports, 1 ≤ p ∧ p ≤ 65536
  · rw [if_pos hc, if_pos]
    rw [List.all_eq_true]
    intro p hp
    simpa using hc p hp
  · rw [if_neg hc, if_neg]
    rw [List.all_eq_true]
    intro hall
    exact hc (fun p hp => by simpa using hall p hp)

/-- The docstring's example, and the example of the class. -/
example : parsePortRange "1,3-5,6".toList = some [1, 3, 4, 5, 6] ∧
    parsePortRange "10101-10105,10108".toList = some [10101, 10102, 10103, 10104, 10105, 10108] := by decide

example : writeParts [.one 1, .upto 3 5, .one 6] = "1,3-5,6".toList := by simp [writeParts, Part.write, showNat]

/-- Nonsense is refused; an interval written backwards gives no port; 65536, which is no TCP port, is accepted. -/
example : parsePortRange "".toList = none ∧ parsePortRange "a-b".toList = none ∧ parsePortRange "-5".toList = none ∧ parsePortRange "5-3".toList = some [] ∧
    parsePortRange "3-".toList = some [3] ∧ validate "65536".toList = some [65536] ∧ validate "65537".toList = none := by decide

/-! ## consumption of the pools -/

/-- Specification: the ports the requests get, from the pools as they are written. A request to the client or engine pool takes the first port of that pool;
if that is empty, and for other requests, the first port of the common pool; if that is empty too, the port the system offers. -/
def spec : List Int → List Int → List Int → List (Pool × Int) → List Int
  | _, _, _, [] => []
  | c :: cs, es, ps, (.client, _) :: l => c :: spec cs es ps l
  | cs, e :: es, ps, (.engine, _) :: l => e :: spec cs es ps l
  | cs, es, p :: ps, _ :: l => p :: spec cs es ps l
  | cs, es, [], (_, os) :: l => os :: spec cs es [] l

theorem drop_of_get {l : List Int} {i : Nat} {p : Int} (h : l[i]? = some p) : l.drop i = p :: l.drop (i + 1) := by
  obtain ⟨hi, rfl⟩ := List.getElem?_eq_some_iff.1 h
  exact List.drop_eq_getElem_cons hi

theorem drop_of_none {l : List Int} {i : Nat} (h : l[i]? = none) : l.drop i = [] := by
  rw [List.drop_eq_nil_iff]
  exact List.getElem?_eq_none_iff.1 h

theorem serve_spec (l : List (Pool × Int)) : ∀ s : St, serve s l = spec (s.client.drop s.ci) (s.engine.drop s.ei) (s.common.drop s.pi) l := by
  induction l with
  | nil => intro s; simp [serve, spec]
  | cons x l ih =>
    intro s
    obtain ⟨p, os⟩ := x
    have hcom : ∀ cs es, cs = s.client.drop s.ci → es = s.engine.drop s.ei →
        (nextCommon s os).2 :: spec ((nextCommon s os).1.client.drop (nextCommon s os).1.ci) ((nextCommon s os).1.engine.drop (nextCommon s os).1.ei)
          ((nextCommon s os).1.common.drop (nextCommon s os).1.pi) l = match s.common.drop s.pi with
          | q :: ps => q :: spec cs es ps l
          | [] => os :: spec cs es [] l := by
      rintro cs es rfl rfl
      unfold nextCommon
      cases h : s.common[s.pi]? with
      | some q => simp [drop_of_get h]
      | none => simp [drop_of_none h]
    simp only [serve]
    rw [ih]
    cases p with
    | client =>
      simp only [next]
      cases h : s.client[s.ci]? with
      | some q => simp [drop_of_get h, spec]
      | none =>
        simp only
        rw [hcom _ _ rfl rfl, drop_of_none h]
        cases s.common.drop s.pi <;> simp [spec]
    | engine =>
      simp only [next]
      cases h : s.engine[s.ei]? with
      | some q =>
        simp only [drop_of_get h]
        cases s.client.drop s.ci <;> simp [spec]
      | none =>
        simp only
        rw [hcom _ _ rfl rfl, drop_of_none h]
        cases s.client.drop s.ci <;> cases s.common.drop s.pi <;> simp [spec]
    | common =>
      simp only [next]
      rw [hcom _ _ rfl rfl]
      cases s.client.drop s.ci <;> cases s.engine.drop s.ei <;> cases s.common.drop s.pi <;> simp [spec]

/-- C48: each pool is consumed in order, a request falls back to the common pool and then to an ephemeral port exactly when its pool, and then the common pool, is exhausted. -/
theorem ports_in_order (client engine common : List Int) (reqs : List (Pool × Int)) : serve (start client engine common) reqs = spec client engine common reqs := by
  rw [serve_spec]
  simp [start]

/-- C48: the deprecated `hb = (a, b)` gives the engines both ports, after the configured ones, in this order. -/
theorem deprecated_hb_pair (client engine common : List Int) (a b : Int) (reqs : List (Pool × Int)) :
    serve (assignHb (start client engine common) a b) reqs = spec client (engine ++ [a, b]) common reqs := by
  rw [serve_spec]; simp [assignHb, start]

/-- a multiset bound: what is handed out comes from the pools, or is a port that the system offered -/
theorem spec_count (p : Int) (reqs : List (Pool × Int)) : ∀ cs es ps, (spec cs es ps reqs).count p ≤ cs.count p + es.count p + ps.count p + (reqs.map Prod.snd).count p := by
  induction reqs with
  | nil => intro cs es ps; simp [spec]
  | cons x l ih =>
    obtain ⟨k, os⟩ := x
    intro cs es ps
    have common : (match ps with
        | q :: ps => q :: spec cs es ps l
        | [] => os :: spec cs es [] l).count p ≤ cs.count p + es.count p + ps.count p + (((k, os) :: l).map Prod.snd).count p := by
      cases ps with
      | cons q ps =>
        have := ih cs es ps
        simp only [List.count_cons, List.map_cons] at *
        omega
      | nil =>
        have := ih cs es []
        simp only [List.count_cons, List.map_cons] at *
        omega
    cases k with
    | client =>
      cases cs with
      | cons c cs =>
        have := ih cs es ps
        simp only [spec, List.count_cons, List.map_cons] at *
        omega
      | nil =>
        cases ps <;> simpa [spec] using common
    | engine =>
      cases es with
      | cons e es =>
        have := ih cs es ps
        have e0 : spec cs (e :: es) ps ((.engine, os) :: l) = e :: spec cs es ps l := by cases cs <;> simp [spec]
        rw [e0]
        simp only [List.count_cons, List.map_cons] at *
        omega
      | nil => cases cs <;> cases ps <;> simpa [spec] using common
    | common => cases cs <;> cases es <;> cases ps <;> simpa [spec] using common

/-- C48: if the configured ports are all different, and the ports the system offers are different and not among them, no port is handed out twice. -/
theorem ports_at_most_once (client engine common : List Int) (reqs : List (Pool × Int)) (hd : (client ++ engine ++ common).Nodup) (hos : (reqs.map Prod.snd).Nodup)
    (hdis : ∀ x ∈ reqs, x.2 ∉ client ++ engine ++ common) : (serve (start client engine common) reqs).Nodup := by
  rw [ports_in_order, List.nodup_iff_count]
  intro p
  have h1 := spec_count p reqs client engine common
  have h2 := List.nodup_iff_count.1 hd p
  have h3 := List.nodup_iff_count.1 hos p
  simp only [List.count_append] at h2
  by_cases hp : p ∈ client ++ engine ++ common
  · have : (reqs.map Prod.snd).count p = 0 := by
      rw [List.count_eq_zero]
      intro hc
      obtain ⟨x, hx, rfl⟩ := List.mem_map.1 hc
      exact hdis x hx hp
    omega
  · have : (client ++ engine ++ common).count p = 0 := List.count_eq_zero.2 hp
    simp only [List.count_append] at this
    omega

/-- C48: while the pools suffice, only configured ports are handed out: as many requests as there are common ports need no ephemeral port. -/
theorem only_configured (client engine common : List Int) (reqs : List (Pool × Int)) (h : reqs.length ≤ common.length) : ∀ p ∈ serve (start client engine common) reqs, p ∈ client ++ engine ++ common := by
  rw [ports_in_order]
  have : ∀ (reqs : List (Pool × Int)) cs es ps, reqs.length ≤ ps.length → ∀ p ∈ spec cs es ps reqs, p ∈ cs ++ es ++ ps := by
    intro reqs
    induction reqs with
    | nil => intro cs es ps _ p hp; simp [spec] at hp
    | cons x l ih =>
      obtain ⟨k, os⟩ := x
      intro cs es ps hl p hp
      simp only [List.length_cons] at hl
      cases ps with
      | nil => simp at hl
      | cons q ps =>
        simp only [List.length_cons] at hl
        have common : p ∈ q :: spec cs es ps l → p ∈ cs ++ es ++ q :: ps := by
          intro hp
          rcases List.mem_cons.1 hp with rfl | hp
          · simp
          · have := ih cs es ps (by omega) p hp
            simp only [List.mem_append, List.mem_cons] at this ⊢
            rcases this with h | h
            · exact .inl h
            · exact .inr (.inr h)
        cases k with
        | client =>
          cases cs with
          | cons c cs =>
            simp only [spec, List.mem_cons] at hp
            rcases hp with rfl | hp
            · simp
            · have := ih cs es (q :: ps) (by simp; omega) p hp
              simp only [List.mem_append, List.mem_cons] at this ⊢
              rcases this with (h | h) | h
              · exact .inl (.inl (.inr h))
              · exact .inl (.inr h)
              · exact .inr h
          | nil => exact common (by simpa [spec] using hp)
        | engine =>
          cases es with
          | cons e es =>
            have e0 : spec cs (e :: es) (q :: ps) ((.engine, os) :: l) = e :: spec cs es (q :: ps) l := by cases cs <;> simp [spec]
            rw [e0, List.mem_cons] at hp
            rcases hp with rfl | hp
            · simp
            · have := ih cs es (q :: ps) (by simp; omega) p hp
              simp only [List.mem_append, List.mem_cons] at this ⊢
              rcases this with (h | h) | h
              · exact .inl (.inl h)
              · exact .inl (.inr (.inr h))
              · exact .inr h
          | nil => exact common (by cases cs <;> simpa [spec] using hp)
        | common => exact common (by cases cs <;> cases es <;> simpa [spec] using hp)
  exact this reqs client engine common h

example : serve (start [1, 2] [5] [7, 8]) [(.client, 100), (.engine, 101), (.common, 102), (.engine, 103), (.client, 104), (.client, 105)] = [1, 5, 7, 8, 2, 105] := by decide

/-- what is left of the configured ports -/
def remaining (s : St) : List Int := s.client.drop s.ci ++ s.engine.drop s.ei ++ s.common.drop s.pi

theorem next_cases (s : St) (p : Pool) (os : Int) :
    ((next s p os).1.randoms = s.randoms ∧ ((next s p os).2 :: remaining (next s p os).1).Perm (remaining s)) ∨
    ((next s p os).2 = os ∧ (next s p os).1.randoms = os :: s.randoms ∧ remaining (next s p os).1 = remaining s) := by
  have dropc : ∀ (l : List Int) (i : Nat) (q : Int), l[i]? = some q → l.drop i = q :: l.drop (i + 1) := by
    intro l i q h
    obtain ⟨hi, rfl⟩ := List.getElem?_eq_some_iff.1 h
    exact List.drop_eq_getElem_cons hi
  have hc : ((nextCommon s os).1.randoms = s.randoms ∧ ((nextCommon s os).2 :: remaining (nextCommon s os).1).Perm (remaining s)) ∨
      ((nextCommon s os).2 = os ∧ (nextCommon s os).1.randoms = os :: s.randoms ∧ remaining (nextCommon s os).1 = remaining s) := by
    unfold nextCommon
    cases h : s.common[s.pi]? with
    | some q =>
      refine .inl ⟨rfl, ?_⟩
      simp only [remaining, dropc _ _ _ h]
      exact List.perm_middle.symm
    | none => exact .inr ⟨rfl, rfl, rfl⟩
  unfold next
  cases p with
  | client =>
    dsimp only
    cases h : s.client[s.ci]? with
    | some q => exact .inl ⟨rfl, by simp only [remaining, dropc _ _ _ h]; exact .refl _⟩
    | none => exact hc
  | engine =>
    dsimp only
    cases h : s.engine[s.ei]? with
    | some q =>
      refine .inl ⟨rfl, ?_⟩
      simp only [remaining, dropc _ _ _ h, List.append_assoc]
      exact List.perm_middle.symm
    | none => exact hc
  | common => exact hc

theorem serveOffers_distinct (reqs : List (Pool × List Int)) : ∀ (s : St) (ports : List Int), serveOffers s reqs = some ports → (remaining s).Nodup →
    (∀ r ∈ s.randoms, r ∉ remaining s) → (∀ x ∈ reqs, ∀ o ∈ x.2, o ∉ remaining s) → ports.Nodup ∧ ∀ q ∈ ports, q ∉ s.randoms := by
  induction reqs with
  | nil => intro s ports h _ _ _; simp only [serveOffers, Option.some.injEq] at h; subst h; simp
  | cons x l ih =>
    obtain ⟨p, offers⟩ := x
    intro s ports h hn hr ho
    unfold serveOffers at h
    cases hs : selectRandom s.randoms offers with
    | none => rw [hs] at h; cases h
    | some os =>
      rw [hs] at h
      dsimp only at h
      have hos : os ∉ s.randoms := by
        have := List.find?_some hs
        simpa using this
      have hmem : os ∈ offers := List.mem_of_find?_eq_some hs
      have hosr : os ∉ remaining s := ho (p, offers) (by simp) os hmem
      cases ht : serveOffers (next s p os).1 l with
      | none => rw [ht] at h; cases h
      | some ps =>
        rw [ht] at h
        simp only [Option.map_some, Option.some.injEq] at h
        subst h
        rcases next_cases s p os with ⟨h1, h2⟩ | ⟨h1, h2, h3⟩
        · have hn' := (h2.symm.nodup hn)
          rw [List.nodup_cons] at hn'
          have hq : (next s p os).2 ∈ remaining s := h2.subset (by simp)
          have hsub : ∀ y ∈ remaining (next s p os).1, y ∈ remaining s := fun y hy => h2.subset (by simp [hy])
          -- treat the port as if it were already selected
          have key : ∀ (l : List (Pool × List Int)) (t : St) (ps : List Int), serveOffers t l = some ps → (∀ x ∈ l, ∀ o ∈ x.2, o ≠ (next s p os).2) →
              (next s p os).2 ∉ remaining t → (next s p os).2 ∉ ps := by
            intro l
            induction l with
            | nil => intro t ps hp _ _; simp only [serveOffers, Option.some.injEq] at hp; subst hp; simp
            | cons y l ihl =>
              obtain ⟨p', offers'⟩ := y
              intro t ps hp hne hnot
              unfold serveOffers at hp
              cases hs' : selectRandom t.randoms offers' with
              | none => rw [hs'] at hp; cases hp
              | some os' =>
                rw [hs'] at hp
                dsimp only at hp
                cases ht' : serveOffers (next t p' os').1 l with
                | none => rw [ht'] at hp; cases hp
                | some ps' =>
                  rw [ht'] at hp
                  simp only [Option.map_some, Option.some.injEq] at hp
                  subst hp
                  have hmem' : os' ∈ offers' := List.mem_of_find?_eq_some hs'
                  have hl : ∀ x ∈ l, ∀ o ∈ x.2, o ≠ (next s p os).2 := fun x hx => hne x (by simp [hx])
                  simp only [List.mem_cons, not_or]
                  rcases next_cases t p' os' with ⟨_, h2'⟩ | ⟨h1', _, h3'⟩
                  · refine ⟨?_, ihl _ _ ht' hl ?_⟩
                    · intro hc; rw [hc] at hnot; exact hnot (h2'.subset (by simp))
                    · intro hc; exact hnot (h2'.subset (by simp [hc]))
                  · refine ⟨?_, ihl _ _ ht' hl ?_⟩
                    · rw [h1']; exact fun hc => hne (p', offers') (by simp) os' hmem' hc.symm
                    · rw [h3']; exact hnot
          have hne : ∀ x ∈ l, ∀ o ∈ x.2, o ≠ (next s p os).2 := by
            intro x hx o hxo hc
            exact ho x (by simp [hx]) o hxo (hc ▸ hq)
          have ih' := ih _ _ ht hn'.2 (fun r hr' => by rw [h1] at hr'; exact fun hc => hr r hr' (hsub r hc))
            (fun x hx o hxo hc => ho x (by simp [hx]) o hxo (hsub o hc))
          rw [List.nodup_cons]
          refine ⟨⟨key l _ _ ht hne hn'.1, ih'.1⟩, ?_⟩
          intro q hq'
          rcases List.mem_cons.1 hq' with rfl | hq'
          · exact fun hc => hr _ hc hq
          · have := ih'.2 q hq'; rwa [h1] at this
        · have ih' := ih _ _ ht (by rw [h3]; exact hn) (fun r hr' => by
            rw [h2] at hr'
            rw [h3]
            rcases List.mem_cons.1 hr' with rfl | hr'
            · exact hosr
            · exact hr r hr') (fun x hx o hxo => by rw [h3]; exact ho x (by simp [hx]) o hxo)
          rw [h2] at ih'
          rw [h1, List.nodup_cons]
          refine ⟨⟨fun hc => (ih'.2 os hc) (by simp), ih'.1⟩, ?_⟩
          intro q hq'
          rcases List.mem_cons.1 hq' with rfl | hq'
          · exact hos
          · exact fun hc => ih'.2 q hq' (by simp [hc])

/-- C48: whatever the operating system offers, also the same port again and again, no port is handed out twice, if the configured ports are different and the system does not offer one of them. -/
theorem ports_distinct_partial (client engine common : List Int) (reqs : List (Pool × List Int)) (ports : List Int) (h : serveOffers (start client engine common) reqs = some ports)
    (hd : (client ++ engine ++ common).Nodup) (hdis : ∀ x ∈ reqs, ∀ o ∈ x.2, o ∉ client ++ engine ++ common) : ports.Nodup :=
  (serveOffers_distinct reqs _ ports h (by simpa [remaining, start] using hd) (by simp [start]) (by simpa [remaining, start] using hdis)).1

example : serveOffers (start [1] [] [7]) [(.client, [50]), (.client, [50]), (.engine, [50]), (.engine, [50, 50, 51]), (.common, [51, 50, 52])] = some [1, 7, 50, 51, 52] := by decide

/-- C48, violated: an ephemeral port may be one of the configured ports that is not used yet (`select_random_ports` does not look at the pools): it is handed out twice. -/
theorem ephemeral_collides_violated : serve (start [] [50000] []) [(.client, 50000), (.engine, 50001)] = [50000, 50000] := by decide

/-- C48, violated: with a deprecated pair such as `IPController.mux = (a, b)`, the port `a` is handed out twice, to clients and to engines, and `b` never. -/
theorem deprecated_pair_violated (a b : Int) (x y : Int) : serve (assignPair (start [] [] []) a b) [(.client, x), (.engine, y)] = [a, a] := by
  simp [assignPair, start, serve, next]

end IPP.Ports
