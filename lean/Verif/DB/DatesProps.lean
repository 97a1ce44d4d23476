import Verif.DB.Dates

/-!
# Dates and strings survive JSON (C103)
-/
namespace IPP.DB.Dates

/-! ## What a timestamp is (specification) -/

/-- `n` digits. -/
def Digits (n : Nat) (t : Text) : Prop := t.length = n ∧ ∀ c ∈ t, isDigit c = true

/-- A fraction of a second: nothing, or a point and one to six digits. -/
def FracShape (t : Text) (us : Nat) : Prop :=
  (t = [] ∧ us = 0) ∨
  ∃ ds, t = '.' :: ds ∧ 1 ≤ ds.length ∧ ds.length ≤ 6 ∧ (∀ c ∈ ds, isDigit c = true) ∧
    us = value ds * 10 ^ (6 - ds.length)

/-- A zone: nothing, `Z`, or a sign, two digits, perhaps a colon, and two digits. -/
def ZoneShape (t : Text) (off : Option Int) : Prop :=
  (t = [] ∧ off = none) ∨ (t = ['Z'] ∧ off = some 0) ∨
  ∃ sign h colon m, t = sign :: (h ++ colon ++ m) ∧ Digits 2 h ∧ Digits 2 m ∧
    (colon = [] ∨ colon = [':']) ∧
    ((sign = '+' ∧ off = some ((value h * 60 + value m : Nat) : Int)) ∨
     (sign = '-' ∧ off = some (-((value h * 60 + value m : Nat) : Int))))

/-- An ISO 8601 timestamp with these fields, perhaps with a newline at the end. -/
def Shape (s : Text) (d : Stamp) : Prop :=
  ∃ y mo da h mi se fr z tail,
    s = y ++ '-' :: (mo ++ '-' :: (da ++ 'T' :: (h ++ ':' :: (mi ++ ':' :: (se ++
      (fr ++ (z ++ tail))))))) ∧
    Digits 4 y ∧ Digits 2 mo ∧ Digits 2 da ∧ Digits 2 h ∧ Digits 2 mi ∧ Digits 2 se ∧
    FracShape fr d.micro ∧ ZoneShape z d.off ∧ (tail = [] ∨ tail = ['\n']) ∧
    d.year = value y ∧ d.month = value mo ∧ d.day = value da ∧ d.hour = value h ∧
    d.minute = value mi ∧ d.second = value se

/-! ## The pattern -/

theorem readDigits_iff (n : Nat) (s ds r : Text) :
    readDigits n s = some (ds, r) ↔ Digits n ds ∧ s = ds ++ r := by
  induction n generalizing s ds with
  | zero =>
    simp only [readDigits, Option.some.injEq, Prod.mk.injEq, Digits, List.length_eq_zero_iff]
    constructor
    · rintro ⟨rfl, rfl⟩
      simp
    · rintro ⟨⟨rfl, -⟩, rfl⟩
      simp
  | succ n ih =>
    cases s with
    | nil =>
      simp only [readDigits, Digits]
      constructor
      · intro h; cases h
      · rintro ⟨⟨h1, -⟩, h2⟩
        cases ds with
        | nil => simp at h1
        | cons c ds => simp at h2
    | cons c s =>
      simp only [readDigits]
      constructor
      · intro h
        split at h
        · next hc =>
          obtain ⟨⟨a, b⟩, hp, he⟩ := Option.map_eq_some_iff.mp h
          simp only [Prod.mk.injEq] at he
          obtain ⟨rfl, rfl⟩ := he
          obtain ⟨⟨h1, h2⟩, rfl⟩ := (ih _ _).mp hp
          refine ⟨⟨by simp [h1], ?_⟩, rfl⟩
          intro x hx
          rcases List.mem_cons.mp hx with rfl | hx
          · exact hc
          · exact h2 x hx
        · cases h
      · rintro ⟨⟨h1, h2⟩, h3⟩
        cases ds with
        | nil => simp at h1
        | cons d ds =>
          simp only [List.cons_append, List.cons.injEq] at h3
          obtain ⟨rfl, rfl⟩ := h3
          rw [if_pos (h2 c (by simp)), (ih (ds ++ r) ds).mpr ⟨⟨by simpa using h1, fun x hx => h2 x (by simp [hx])⟩, rfl⟩]
          rfl

theorem lit_iff (c : Char) (s r : Text) : lit c s = some r ↔ s = c :: r := by
  cases s with
  | nil => simp [lit]
  | cons x s =>
    simp only [lit]
    split
    · next h => subst h; simp
    · next h => simp [h]

theorem ends_iff (r : Text) : ends r = true ↔ r = [] ∨ r = ['\n'] := by
  simp [ends]

theorem digit_range {c : Char} (h : isDigit c = true) : 48 ≤ c.toNat ∧ c.toNat ≤ 57 := by
  unfold isDigit at h
  simp only [Bool.and_eq_true, decide_eq_true_eq] at h
  exact ⟨h.1, h.2⟩

theorem not_digit {c : Char} (h : isDigit c = true) : c ≠ '.' ∧ c ≠ '\n' ∧ c ≠ 'Z' ∧ c ≠ '+' ∧
    c ≠ '-' ∧ c ≠ ':' := by
  refine ⟨?_, ?_, ?_, ?_, ?_, ?_⟩ <;> (rintro rfl; revert h; decide)

/-- The first character of what may follow the seconds is no digit. -/
theorem zone_head {z tail : Text} {off : Option Int} (hz : ZoneShape z off)
    (ht : tail = [] ∨ tail = ['\n']) (c : Char) (r : Text) (h : z ++ tail = c :: r) :
    isDigit c = false ∧ c ≠ '.' := by
  rcases hz with ⟨rfl, -⟩ | ⟨rfl, -⟩ | ⟨sign, a, b, m, rfl, -, -, -, hs⟩
  · rcases ht with rfl | rfl
    · simp at h
    · simp only [List.nil_append, List.cons.injEq] at h
      rw [← h.1]; decide
  · simp only [List.cons_append, List.cons.injEq] at h
    rw [← h.1]; decide
  · simp only [List.cons_append, List.cons.injEq] at h
    rw [← h.1]
    rcases hs with ⟨rfl, -⟩ | ⟨rfl, -⟩ <;> decide

theorem zone_iff (s : Text) (off : Option Int) :
    zone s = some off ↔ ∃ z tail, s = z ++ tail ∧ ZoneShape z off ∧ (tail = [] ∨ tail = ['\n']) := by
  constructor
  · intro h
    unfold zone at h
    split at h
    · next he =>
      cases h
      exact ⟨[], s, rfl, Or.inl ⟨rfl, rfl⟩, (ends_iff s).mp he⟩
    · split at h
      · cases h
      · next c r hne =>
        split at h
        · next hc =>
          subst hc
          split at h
          · next he =>
            cases h
            exact ⟨['Z'], r, rfl, Or.inr (Or.inl ⟨rfl, rfl⟩), (ends_iff r).mp he⟩
          · cases h
        · next hz =>
          split at h
          · next hc =>
            split at h
            · cases h
            · next hh r2 h1 =>
              obtain ⟨d1, rfl⟩ := (readDigits_iff _ _ _ _).mp h1
              split at h
              · cases h
              · next mm r3 h2 =>
                obtain ⟨d2, e2⟩ := (readDigits_iff _ _ _ _).mp h2
                split at h
                · next he =>
                  cases h
                  have hcol : ∃ colon, (colon = [] ∨ colon = [':']) ∧ r2 = colon ++ (mm ++ r3) := by
                    cases hl : lit ':' r2 with
                    | none =>
                      rw [hl] at e2
                      exact ⟨[], Or.inl rfl, e2⟩
                    | some r' =>
                      rw [hl] at e2
                      have := (lit_iff _ _ _).mp hl
                      refine ⟨[':'], Or.inr rfl, ?_⟩
                      rw [this]
                      simpa using e2
                  obtain ⟨colon, hcolon, rfl⟩ := hcol
                  refine ⟨c :: (hh ++ colon ++ mm), r3, by simp, Or.inr (Or.inr
                    ⟨c, hh, colon, mm, rfl, d1, d2, hcolon, ?_⟩), (ends_iff r3).mp he⟩
                  rcases hc with rfl | rfl
                  · exact Or.inl ⟨rfl, rfl⟩
                  · exact Or.inr ⟨rfl, rfl⟩
                · cases h
          · cases h
  · rintro ⟨z, tail, rfl, hz, ht⟩
    have hends : ends tail = true := (ends_iff _).mpr ht
    rcases hz with ⟨rfl, rfl⟩ | ⟨rfl, rfl⟩ | ⟨sign, h, colon, m, rfl, dh, dm, hcol, hs⟩
    · unfold zone
      simp [hends]
    · unfold zone
      have : ends (['Z'] ++ tail) = false := by
        rcases ht with rfl | rfl <;> rfl
      rw [this]
      simp [hends]
    · have hne : ends (sign :: (h ++ colon ++ m) ++ tail) = false := by
        cases h with
        | nil => simp [Digits] at dh
        | cons x h => simp [ends]
      have r1 : readDigits 2 (h ++ colon ++ m ++ tail) = some (h, colon ++ (m ++ tail)) :=
        (readDigits_iff _ _ _ _).mpr ⟨dh, by simp⟩
      have r2 : readDigits 2 ((lit ':' (colon ++ (m ++ tail))).getD (colon ++ (m ++ tail))) =
          some (m, tail) := by
        apply (readDigits_iff _ _ _ _).mpr
        refine ⟨dm, ?_⟩
        rcases hcol with rfl | rfl
        · cases m with
          | nil => simp [Digits] at dm
          | cons x m =>
            have := (not_digit (dm.2 x (by simp))).2.2.2.2.2
            simp [lit, this]
        · simp [lit]
      unfold zone
      rw [hne]
      rcases hs with ⟨rfl, rfl⟩ | ⟨rfl, rfl⟩
      · simp only [List.cons_append, Bool.false_eq_true, if_false, r1, r2, hends]
        simp
      · simp only [List.cons_append, Bool.false_eq_true, if_false, r1, r2, hends]
        simp

theorem takeWhile_digits (ds rest : Text) (hd : ∀ c ∈ ds, isDigit c = true)
    (hr : ∀ c r, rest = c :: r → isDigit c = false) :
    (ds ++ rest).takeWhile isDigit = ds := by
  induction ds with
  | nil =>
    cases rest with
    | nil => rfl
    | cons c r => simp [hr c r rfl]
  | cons c ds ih =>
    rw [List.cons_append, List.takeWhile_cons, if_pos (hd c (by simp)),
      ih (fun x hx => hd x (by simp [hx]))]

/-- The fraction and the zone together. -/
theorem fracZone_iff (s : Text) (us : Nat) (off : Option Int) :
    ((fraction s).bind fun (us', r) => (zone r).map fun off' => (us', off')) = some (us, off) ↔
      ∃ fr z tail, s = fr ++ (z ++ tail) ∧ FracShape fr us ∧ ZoneShape z off ∧
        (tail = [] ∨ tail = ['\n']) := by
  constructor
  · intro h
    obtain ⟨⟨us', r⟩, hf, h⟩ := Option.bind_eq_some_iff.mp h
    obtain ⟨off', hz, h⟩ := Option.map_eq_some_iff.mp h
    simp only [Prod.mk.injEq] at h
    obtain ⟨rfl, rfl⟩ := h
    obtain ⟨z, tail, rfl, hz, ht⟩ := (zone_iff _ _).mp hz
    unfold fraction at hf
    split at hf
    · next hl =>
      simp only [Option.some.injEq, Prod.mk.injEq] at hf
      obtain ⟨rfl, rfl⟩ := hf
      exact ⟨[], z, tail, rfl, Or.inl ⟨rfl, rfl⟩, hz, ht⟩
    · next r hl =>
      have := (lit_iff _ _ _).mp hl
      subst this
      simp only at hf
      split at hf
      · cases hf
      · next hne =>
        simp only [Option.some.injEq, Prod.mk.injEq] at hf
        obtain ⟨hus, hr⟩ := hf
        refine ⟨'.' :: (r.takeWhile isDigit).take 6, z, tail, ?_, Or.inr ⟨_, rfl, ?_, ?_, ?_,
          hus.symm⟩, hz, ht⟩
        · rw [List.cons_append, ← hr]
          congr 1
          have hpre : (r.takeWhile isDigit).take 6 <+: r :=
            (List.take_prefix _ _).trans (List.takeWhile_prefix _)
          have key : ∀ p l : Text, p <+: l → l = p ++ l.drop p.length := by
            rintro p l ⟨w, rfl⟩
            rw [List.drop_left' rfl]
          exact key _ _ hpre
        · rcases hl2 : (r.takeWhile isDigit).take 6 with _ | _
          · exact absurd hl2 hne
          · simp
        · simp [List.length_take]
          omega
        · intro c hc
          have := List.all_takeWhile (p := isDigit) (l := r)
          rw [List.all_eq_true] at this
          exact this c (List.mem_of_mem_take hc)
  · rintro ⟨fr, z, tail, rfl, hf, hz, ht⟩
    have hzone := (zone_iff (z ++ tail) off).mpr ⟨z, tail, rfl, hz, ht⟩
    have hh := zone_head hz ht
    have : fraction (fr ++ (z ++ tail)) = some (us, z ++ tail) := by
      rcases hf with ⟨rfl, rfl⟩ | ⟨ds, rfl, h1, h2, h3, rfl⟩
      · unfold fraction
        have : lit '.' ([] ++ (z ++ tail)) = none := by
          cases hzt : z ++ tail with
          | nil => rfl
          | cons c r => simp [lit, (hh c r hzt).2]
        rw [this]
        rfl
      · unfold fraction
        have hl : lit '.' ('.' :: ds ++ (z ++ tail)) = some (ds ++ (z ++ tail)) :=
          (lit_iff _ _ _).mpr rfl
        have htw := takeWhile_digits ds (z ++ tail) h3 (fun c r e => (hh c r e).1)
        rw [hl]
        simp only [htw]
        rw [List.take_of_length_le h2, if_neg (by intro e; simp [e] at h1), List.drop_left' rfl]
    rw [this]
    simp [hzone]

/-- **The strings that are taken for a date** are exactly the ISO 8601 timestamps with
seconds. -/
theorem pat_iff (s : Text) (d : Stamp) : pat s = some d ↔ Shape s d := by
  constructor
  · intro h
    unfold pat at h
    obtain ⟨⟨y, r1⟩, h1, h⟩ := Option.bind_eq_some_iff.mp h
    obtain ⟨r1', l1, h⟩ := Option.bind_eq_some_iff.mp h
    obtain ⟨⟨mo, r2⟩, h2, h⟩ := Option.bind_eq_some_iff.mp h
    obtain ⟨r2', l2, h⟩ := Option.bind_eq_some_iff.mp h
    obtain ⟨⟨da, r3⟩, h3, h⟩ := Option.bind_eq_some_iff.mp h
    obtain ⟨r3', l3, h⟩ := Option.bind_eq_some_iff.mp h
    obtain ⟨⟨hh, r4⟩, h4, h⟩ := Option.bind_eq_some_iff.mp h
    obtain ⟨r4', l4, h⟩ := Option.bind_eq_some_iff.mp h
    obtain ⟨⟨mi, r5⟩, h5, h⟩ := Option.bind_eq_some_iff.mp h
    obtain ⟨r5', l5, h⟩ := Option.bind_eq_some_iff.mp h
    obtain ⟨⟨se, r6⟩, h6, h⟩ := Option.bind_eq_some_iff.mp h
    obtain ⟨⟨us, r7⟩, h7, h⟩ := Option.bind_eq_some_iff.mp h
    obtain ⟨off, h8, hfin⟩ := Option.map_eq_some_iff.mp h
    clear h
    obtain ⟨fr, z, tail, e6, hf, hz, ht⟩ := (fracZone_iff r6 us off).mp (by
      rw [h7]; simp [h8])
    obtain ⟨d1, rfl⟩ := (readDigits_iff _ _ _ _).mp h1
    obtain ⟨d2, rfl⟩ := (readDigits_iff _ _ _ _).mp h2
    obtain ⟨d3, rfl⟩ := (readDigits_iff _ _ _ _).mp h3
    obtain ⟨d4, rfl⟩ := (readDigits_iff _ _ _ _).mp h4
    obtain ⟨d5, rfl⟩ := (readDigits_iff _ _ _ _).mp h5
    obtain ⟨d6, rfl⟩ := (readDigits_iff _ _ _ _).mp h6
    have l1 := (lit_iff _ _ _).mp l1
    have l2 := (lit_iff _ _ _).mp l2
    have l3 := (lit_iff _ _ _).mp l3
    have l4 := (lit_iff _ _ _).mp l4
    have l5 := (lit_iff _ _ _).mp l5
    subst hfin
    refine ⟨y, mo, da, hh, mi, se, fr, z, tail, ?_, d1, d2, d3, d4, d5, d6, hf, hz, ht,
      rfl, rfl, rfl, rfl, rfl, rfl⟩
    rw [l1, l2, l3, l4, l5, e6]
  · rintro ⟨y, mo, da, hh, mi, se, fr, z, tail, rfl, d1, d2, d3, d4, d5, d6, hf, hz, ht,
      e1, e2, e3, e4, e5, e6⟩
    have hfz := (fracZone_iff (fr ++ (z ++ tail)) d.micro d.off).mpr
      ⟨fr, z, tail, rfl, hf, hz, ht⟩
    obtain ⟨⟨us', r⟩, hf', h⟩ := Option.bind_eq_some_iff.mp hfz
    obtain ⟨off', hz', h⟩ := Option.map_eq_some_iff.mp h
    simp only [Prod.mk.injEq] at h
    have q1 : ∀ r, readDigits 4 (y ++ r) = some (y, r) :=
      fun r => (readDigits_iff _ _ _ _).mpr ⟨d1, rfl⟩
    have q : ∀ t : Text, Digits 2 t → ∀ r, readDigits 2 (t ++ r) = some (t, r) :=
      fun t dt r => (readDigits_iff _ _ _ _).mpr ⟨dt, rfl⟩
    have ql : ∀ c r, lit c (c :: r) = some r := fun c r => (lit_iff _ _ _).mpr rfl
    unfold pat
    simp only [q1, ql, q mo d2, q da d3, q hh d4, q mi d5, q se d6, Option.bind_some, hf', hz',
      Option.map_some, h.1, h.2, ← e1, ← e2, ← e3, ← e4, ← e5, ← e6]

/-! ## Timestamps that are written are read -/

theorem value_snoc (t : Text) (c : Char) : value (t ++ [c]) = value t * 10 + digitVal c := by
  unfold value
  rw [List.foldl_append]
  rfl

theorem digit_char : ∀ m, m < 10 → isDigit (Char.ofNat (48 + m)) = true ∧
    digitVal (Char.ofNat (48 + m)) = m := by decide

theorem pad_digits (k n : Nat) : Digits k (pad k n) := by
  induction k generalizing n with
  | zero => simp [Digits, pad]
  | succ k ih =>
    obtain ⟨h1, h2⟩ := ih (n / 10)
    refine ⟨by simp [pad, h1], ?_⟩
    intro c hc
    simp only [pad, List.mem_append, List.mem_singleton] at hc
    rcases hc with hc | rfl
    · exact h2 c hc
    · exact (digit_char _ (Nat.mod_lt _ (by omega))).1

theorem pad_value (k n : Nat) : value (pad k n) = n % 10 ^ k := by
  induction k generalizing n with
  | zero => simp [pad, value, Nat.mod_one]
  | succ k ih =>
    rw [pad, value_snoc, ih, (digit_char _ (Nat.mod_lt _ (by omega))).2,
      Nat.pow_succ, Nat.mul_comm (10 ^ k) 10, Nat.mod_mul]
    omega

/-- A datetime that exists, with a zone that can be written. -/
def Good (d : Stamp) : Prop := d.valid = true ∧ ∃ o, d.off = some o ∧ o.natAbs < 6000

theorem valid_bounds {d : Stamp} (h : d.valid = true) : d.year ≤ 9999 ∧ d.month ≤ 12 ∧
    d.day ≤ 31 ∧ d.hour < 24 ∧ d.minute < 60 ∧ d.second < 60 ∧ d.micro < 1000000 := by
  unfold Stamp.valid at h
  simp only [Bool.and_eq_true, decide_eq_true_eq] at h
  obtain ⟨⟨⟨⟨⟨⟨⟨⟨⟨-, h1⟩, -⟩, h2⟩, -⟩, h3⟩, h4⟩, h5⟩, h6⟩, h7⟩ := h
  have : daysIn d.year d.month ≤ 31 := by
    unfold daysIn
    repeat' split
    all_goals omega
  exact ⟨h1, h2, by omega, h4, h5, h6, h7⟩

theorem iso_shape (d : Stamp) (h : Good d) : Shape (iso d) d := by
  obtain ⟨hv, o, ho, hb⟩ := h
  obtain ⟨h1, h2, h3, h4, h5, h6, h7⟩ := valid_bounds hv
  refine ⟨pad 4 d.year, pad 2 d.month, pad 2 d.day, pad 2 d.hour, pad 2 d.minute,
    pad 2 d.second, if d.micro = 0 then [] else '.' :: pad 6 d.micro, zoneText d.off, [],
    by simp [iso], pad_digits _ _, pad_digits _ _, pad_digits _ _, pad_digits _ _,
    pad_digits _ _, pad_digits _ _, ?_, ?_, Or.inl rfl, ?_, ?_, ?_, ?_, ?_, ?_⟩
  · by_cases hz : d.micro = 0
    · rw [if_pos hz]
      exact Or.inl ⟨rfl, hz⟩
    · rw [if_neg hz]
      obtain ⟨l, hd⟩ := pad_digits 6 d.micro
      refine Or.inr ⟨_, rfl, by omega, by omega, hd, ?_⟩
      rw [l, pad_value, Nat.mod_eq_of_lt (by omega)]
      simp
  · rw [ho]
    unfold zoneText
    simp only
    by_cases hz : o = 0
    · rw [if_pos hz]
      exact Or.inr (Or.inl ⟨rfl, by rw [hz]⟩)
    · rw [if_neg hz]
      refine Or.inr (Or.inr ⟨if o < 0 then '-' else '+', pad 2 (o.natAbs / 60), [':'],
        pad 2 (o.natAbs % 60), by simp, pad_digits _ _, pad_digits _ _, Or.inr rfl, ?_⟩)
      have e : value (pad 2 (o.natAbs / 60)) * 60 + value (pad 2 (o.natAbs % 60)) = o.natAbs := by
        rw [pad_value, pad_value, Nat.mod_eq_of_lt (by omega), Nat.mod_eq_of_lt (by omega)]
        omega
      rw [e]
      by_cases hn : o < 0
      · rw [if_pos hn]
        exact Or.inr ⟨rfl, by congr 1; omega⟩
      · rw [if_neg hn]
        exact Or.inl ⟨rfl, by congr 1; omega⟩
  all_goals
    rw [pad_value]
    symm
    apply Nat.mod_eq_of_lt
    omega

theorem parse_iso (loc : Stamp → Int) (d : Stamp) (h : Good d) :
    parseDate loc (iso d) = .ok (.date d) := by
  unfold parseDate
  rw [(pat_iff _ _).mpr (iso_shape d h)]
  simp only [h.1, if_true]
  obtain ⟨-, o, ho, -⟩ := h
  cases d
  simp only at ho
  subst ho
  rfl

/-! ## Strings and dates in a value (specification) -/

mutual
/-- The strings in a value; keys of dicts are not among them. -/
def strings : J → List Text
  | .str s => [s]
  | .list l => stringsL l
  | .dict l => stringsD l
  | .null | .bool _ | .num _ | .date _ => []
def stringsL : JL → List Text
  | .nil => []
  | .cons j l => strings j ++ stringsL l
def stringsD : JD → List Text
  | .nil => []
  | .cons _ j l => strings j ++ stringsD l
end

mutual
/-- The datetimes in a value. -/
def dates : J → List Stamp
  | .date d => [d]
  | .list l => datesL l
  | .dict l => datesD l
  | .null | .bool _ | .num _ | .str _ => []
def datesL : JL → List Stamp
  | .nil => []
  | .cons j l => dates j ++ datesL l
def datesD : JD → List Stamp
  | .nil => []
  | .cons _ j l => dates j ++ datesD l
end

mutual
/-- The value with `f` applied to its datetimes. -/
def mapDates (f : Stamp → Stamp) : J → J
  | .date d => .date (f d)
  | .list l => .list (mapDatesL f l)
  | .dict l => .dict (mapDatesD f l)
  | .null => .null
  | .bool b => .bool b
  | .num n => .num n
  | .str s => .str s
def mapDatesL (f : Stamp → Stamp) : JL → JL
  | .nil => .nil
  | .cons j l => .cons (mapDates f j) (mapDatesL f l)
def mapDatesD (f : Stamp → Stamp) : JD → JD
  | .nil => .nil
  | .cons k j l => .cons k (mapDates f j) (mapDatesD f l)
end

/-- A string that is taken for a date. -/
def DateLike (s : Text) : Prop := ∃ d, Shape s d

/-- … and is one that does not exist. -/
def NoSuchDate (s : Text) : Prop := ∃ d, Shape s d ∧ d.valid = false

theorem not_dateLike {s : Text} (h : ¬ DateLike s) : pat s = none := by
  cases hp : pat s with
  | none => rfl
  | some d => exact absurd ⟨d, (pat_iff s d).mp hp⟩ h

/-! ## Strings -/

theorem parse_same_iff (loc : Stamp → Int) (s : Text) :
    parseDate loc s = .ok (.str s) ↔ ¬ DateLike s := by
  constructor
  · rintro h ⟨d, hd⟩
    unfold parseDate at h
    rw [(pat_iff s d).mpr hd] at h
    simp only at h
    split at h <;> cases h
  · intro h
    unfold parseDate
    rw [not_dateLike h]

theorem parse_error_iff (loc : Stamp → Int) (s : Text) :
    parseDate loc s = .error .valueError ↔ NoSuchDate s := by
  unfold parseDate
  constructor
  · intro h
    split at h
    · cases h
    · next d hp =>
      split at h
      · cases h
      · next hv => exact ⟨d, (pat_iff s d).mp hp, by simpa using hv⟩
  · rintro ⟨d, hd, hv⟩
    rw [(pat_iff s d).mpr hd]
    simp [hv]

theorem map_ok_iff {α β : Type} (x : Except Err α) (f : α → β) (y : β) :
    x.map f = .ok y ↔ ∃ a, x = .ok a ∧ f a = y := by
  cases x <;> simp [Except.map]

theorem map_error_iff {α β : Type} (x : Except Err α) (f : α → β) :
    x.map f = .error .valueError ↔ x = .error .valueError := by
  cases x <;> simp [Except.map]

mutual
/-- **A value comes out unchanged exactly if no string in it looks like a date.** -/
theorem extract_same_iff (loc : Stamp → Int) : ∀ j : J,
    extract loc j = .ok j ↔ ∀ s ∈ strings j, ¬ DateLike s
  | .null => by simp [extract, strings]
  | .bool b => by simp [extract, strings]
  | .num n => by simp [extract, strings]
  | .date d => by simp [extract, strings]
  | .str s => by
    simp only [extract, strings, List.mem_singleton, forall_eq]
    exact parse_same_iff loc s
  | .list l => by
    simp only [extract, strings, map_ok_iff, J.list.injEq, exists_eq_right]
    exact extractL_same_iff loc l
  | .dict l => by
    simp only [extract, strings, map_ok_iff, J.dict.injEq, exists_eq_right]
    exact extractD_same_iff loc l
theorem extractL_same_iff (loc : Stamp → Int) : ∀ l : JL,
    extractL loc l = .ok l ↔ ∀ s ∈ stringsL l, ¬ DateLike s
  | .nil => by simp [extractL, stringsL]
  | .cons j l => by
    have h1 := extract_same_iff loc j
    have h2 := extractL_same_iff loc l
    simp only [extractL, stringsL, List.mem_append]
    cases hj : extract loc j with
    | error e =>
      rw [hj] at h1
      simp only [reduceCtorEq, false_iff] at h1 ⊢
      exact fun h => h1 (fun s hs => h s (Or.inl hs))
    | ok j' =>
      rw [hj] at h1
      simp only [map_ok_iff, JL.cons.injEq]
      constructor
      · rintro ⟨l', hl, rfl, rfl⟩ s (hs | hs)
        · exact h1.mp rfl s hs
        · exact h2.mp hl s hs
      · intro h
        have e1 := h1.mpr (fun s hs => h s (Or.inl hs))
        cases e1
        exact ⟨l, h2.mpr (fun s hs => h s (Or.inr hs)), rfl, rfl⟩
theorem extractD_same_iff (loc : Stamp → Int) : ∀ l : JD,
    extractD loc l = .ok l ↔ ∀ s ∈ stringsD l, ¬ DateLike s
  | .nil => by simp [extractD, stringsD]
  | .cons k j l => by
    have h1 := extract_same_iff loc j
    have h2 := extractD_same_iff loc l
    simp only [extractD, stringsD, List.mem_append]
    cases hj : extract loc j with
    | error e =>
      rw [hj] at h1
      simp only [reduceCtorEq, false_iff] at h1 ⊢
      exact fun h => h1 (fun s hs => h s (Or.inl hs))
    | ok j' =>
      rw [hj] at h1
      simp only [map_ok_iff, JD.cons.injEq, true_and]
      constructor
      · rintro ⟨l', hl, rfl, rfl⟩ s (hs | hs)
        · exact h1.mp rfl s hs
        · exact h2.mp hl s hs
      · intro h
        have e1 := h1.mpr (fun s hs => h s (Or.inl hs))
        cases e1
        exact ⟨l, h2.mpr (fun s hs => h s (Or.inr hs)), rfl, rfl⟩
end

mutual
/-- **It raises exactly if a string in it looks like a date that does not exist.** -/
theorem extract_error_iff (loc : Stamp → Int) : ∀ j : J,
    extract loc j = .error .valueError ↔ ∃ s ∈ strings j, NoSuchDate s
  | .null => by simp [extract, strings]
  | .bool b => by simp [extract, strings]
  | .num n => by simp [extract, strings]
  | .date d => by simp [extract, strings]
  | .str s => by
    simp only [extract, strings, List.mem_singleton, exists_eq_left]
    exact parse_error_iff loc s
  | .list l => by
    simp only [extract, strings, map_error_iff]
    exact extractL_error_iff loc l
  | .dict l => by
    simp only [extract, strings, map_error_iff]
    exact extractD_error_iff loc l
theorem extractL_error_iff (loc : Stamp → Int) : ∀ l : JL,
    extractL loc l = .error .valueError ↔ ∃ s ∈ stringsL l, NoSuchDate s
  | .nil => by simp [extractL, stringsL]
  | .cons j l => by
    have h1 := extract_error_iff loc j
    have h2 := extractL_error_iff loc l
    simp only [extractL, stringsL, List.mem_append, or_and_right, exists_or]
    rw [← h1, ← h2]
    cases hj : extract loc j with
    | error e => cases e; simp
    | ok j' => simp [map_error_iff]
theorem extractD_error_iff (loc : Stamp → Int) : ∀ l : JD,
    extractD loc l = .error .valueError ↔ ∃ s ∈ stringsD l, NoSuchDate s
  | .nil => by simp [extractD, stringsD]
  | .cons k j l => by
    have h1 := extract_error_iff loc j
    have h2 := extractD_error_iff loc l
    simp only [extractD, stringsD, List.mem_append, or_and_right, exists_or]
    rw [← h1, ← h2]
    cases hj : extract loc j with
    | error e => cases e; simp
    | ok j' => simp [map_error_iff]
end

/-! ## Through the database -/

/-- A datetime that can be written: with a zone, or local. -/
def Writable (loc : Stamp → Int) (d : Stamp) : Prop := Good (aware loc d)

mutual
theorem stored_ok (loc : Stamp → Int) : ∀ j : J, (∀ s ∈ strings j, ¬ DateLike s) →
    (∀ d ∈ dates j, Writable loc d) → stored loc j = .ok (mapDates (aware loc) j)
  | .null, _, _ => rfl
  | .bool b, _, _ => rfl
  | .num n, _, _ => rfl
  | .date d, _, hd => parse_iso loc _ (hd d (by simp [dates]))
  | .str s, hs, _ => (parse_same_iff loc s).mpr (hs s (by simp [strings]))
  | .list l, hs, hd => by
    have := storedL_ok loc l hs hd
    simp only [stored, encode, extract, mapDates, this, Except.map]
  | .dict l, hs, hd => by
    have := storedD_ok loc l hs hd
    simp only [stored, encode, extract, mapDates, this, Except.map]
theorem storedL_ok (loc : Stamp → Int) : ∀ l : JL, (∀ s ∈ stringsL l, ¬ DateLike s) →
    (∀ d ∈ datesL l, Writable loc d) →
    extractL loc (encodeL loc l) = .ok (mapDatesL (aware loc) l)
  | .nil, _, _ => rfl
  | .cons j l, hs, hd => by
    have h1 := stored_ok loc j (fun s h => hs s (by simp [stringsL, h]))
      (fun d h => hd d (by simp [datesL, h]))
    have h2 := storedL_ok loc l (fun s h => hs s (by simp [stringsL, h]))
      (fun d h => hd d (by simp [datesL, h]))
    unfold stored at h1
    simp only [encodeL, extractL, h1, h2, mapDatesL, Except.map]
theorem storedD_ok (loc : Stamp → Int) : ∀ l : JD, (∀ s ∈ stringsD l, ¬ DateLike s) →
    (∀ d ∈ datesD l, Writable loc d) →
    extractD loc (encodeD loc l) = .ok (mapDatesD (aware loc) l)
  | .nil, _, _ => rfl
  | .cons k j l, hs, hd => by
    have h1 := stored_ok loc j (fun s h => hs s (by simp [stringsD, h]))
      (fun d h => hd d (by simp [datesD, h]))
    have h2 := storedD_ok loc l (fun s h => hs s (by simp [stringsD, h]))
      (fun d h => hd d (by simp [datesD, h]))
    unfold stored at h1
    simp only [encodeD, extractD, h1, h2, mapDatesD, Except.map]
end

mutual
theorem mapDates_same (f : Stamp → Stamp) : ∀ j : J, (∀ d ∈ dates j, f d = d) → mapDates f j = j
  | .null, _ => rfl
  | .bool b, _ => rfl
  | .num n, _ => rfl
  | .str s, _ => rfl
  | .date d, h => by rw [mapDates, h d (by simp [dates])]
  | .list l, h => by rw [mapDates, mapDatesL_same f l h]
  | .dict l, h => by rw [mapDates, mapDatesD_same f l h]
theorem mapDatesL_same (f : Stamp → Stamp) : ∀ l : JL, (∀ d ∈ datesL l, f d = d) →
    mapDatesL f l = l
  | .nil, _ => rfl
  | .cons j l, h => by
    rw [mapDatesL, mapDates_same f j (fun d hd => h d (by simp [datesL, hd])),
      mapDatesL_same f l (fun d hd => h d (by simp [datesL, hd]))]
theorem mapDatesD_same (f : Stamp → Stamp) : ∀ l : JD, (∀ d ∈ datesD l, f d = d) →
    mapDatesD f l = l
  | .nil, _ => rfl
  | .cons k j l, h => by
    rw [mapDatesD, mapDates_same f j (fun d hd => h d (by simp [datesD, hd])),
      mapDatesD_same f l (fun d hd => h d (by simp [datesD, hd]))]
end

theorem aware_good (loc : Stamp → Int) {d : Stamp} (h : Good d) : aware loc d = d := by
  obtain ⟨-, o, ho, -⟩ := h
  cases d
  simp only at ho
  subst ho
  rfl

/-- **What is stored comes back**, dates as dates and strings as strings, if no string looks
like a date and the datetimes have a zone. -/
theorem stored_same_partial (loc : Stamp → Int) (j : J) (hs : ∀ s ∈ strings j, ¬ DateLike s)
    (hd : ∀ d ∈ dates j, Good d) : stored loc j = .ok j := by
  rw [stored_ok loc j hs (fun d h => by
    unfold Writable
    rw [aware_good loc (hd d h)]
    exact hd d h)]
  rw [mapDates_same _ _ (fun d h => aware_good loc (hd d h))]

/-- Naive datetimes come back as local ones, nothing else is changed. -/
theorem stored_local (loc : Stamp → Int) (j : J) (hs : ∀ s ∈ strings j, ¬ DateLike s)
    (hd : ∀ d ∈ dates j, Writable loc d) : stored loc j = .ok (mapDates (aware loc) j) :=
  stored_ok loc j hs hd

theorem readRows_error (loc : Stamp → Int) (l : List J) :
    readRows loc l = .error .valueError ↔ ∃ j ∈ l, stored loc j = .error .valueError := by
  induction l with
  | nil => simp [readRows]
  | cons j l ih =>
    simp only [readRows]
    cases hj : stored loc j with
    | error e => cases e; simp [hj]
    | ok j' => simp [map_error_iff, ih, hj]

/-- All records are read if no string in them looks like a date. -/
theorem rows_same_partial (loc : Stamp → Int) (l : List J)
    (hs : ∀ j ∈ l, ∀ s ∈ strings j, ¬ DateLike s) (hd : ∀ j ∈ l, ∀ d ∈ dates j, Good d) :
    readRows loc l = .ok l := by
  induction l with
  | nil => rfl
  | cons j l ih =>
    simp only [readRows]
    rw [stored_same_partial loc j (hs j (by simp)) (hd j (by simp)),
      ih (fun x hx => hs x (by simp [hx])) (fun x hx => hd x (by simp [hx]))]
    rfl

/-! ## Violations -/

/-- **A string that is a timestamp is changed to a datetime**: the message of an exception, an
argument, a value of the user's metadata. -/
theorem string_becomes_date_violated (loc : Stamp → Int) (s : Text) (d : Stamp) (h : Shape s d)
    (hv : d.valid = true) :
    stored loc (.str s) = .ok (.date (aware loc d)) ∧ stored loc (.str s) ≠ .ok (.str s) := by
  have : stored loc (.str s) = .ok (.date (aware loc d)) := by
    simp only [stored, encode, extract, parseDate, (pat_iff s d).mpr h, hv, if_true]
  refine ⟨this, ?_⟩
  rw [this]
  simp

/-- **One record with a string that looks like a date that does not exist makes every query
raise that reads its column**, whatever other records it asks for as well. -/
theorem bad_date_ruins_query_violated (loc : Stamp → Int) (before after : List J) (s : Text)
    (h : NoSuchDate s) (k : Text) :
    readRows loc (before ++ .dict (.cons k (.str s) .nil) :: after) = .error .valueError := by
  rw [readRows_error]
  refine ⟨_, List.mem_append_right _ (List.mem_cons_self ..), ?_⟩
  show extract loc (.dict (.cons k (.str s) .nil)) = _
  rw [extract_error_iff]
  exact ⟨s, by simp [strings, stringsD], h⟩

/-- The client gets it as a string again, but another one: a timestamp without a zone has one
when it comes back from the hub. -/
theorem text_with_zone_violated (loc : Stamp → Int) (s : Text) (d : Stamp) (h : Shape s d)
    (hw : Writable loc d) (hn : d.off = none) :
    ∃ j t, stored loc (.str s) = .ok j ∧ encode loc j = .str t ∧ t ≠ s := by
  have hv : d.valid = true := hw.1
  refine ⟨_, _, (string_becomes_date_violated loc s d h hv).1, rfl, ?_⟩
  rw [aware_good loc hw]
  intro e
  have h1 := iso_shape _ hw
  rw [e] at h1
  have h2 := (pat_iff s d).mpr h
  rw [(pat_iff s _).mpr h1] at h2
  have := congrArg Stamp.off (Option.some.inj h2)
  simp [aware, hn] at this

example : encode (fun _ => 60) (.date (aware (fun _ => 60) ⟨2024, 1, 31, 12, 0, 0, 0, none⟩)) =
    .str "2024-01-31T12:00:00+01:00".toList := by
  simp only [encode, J.str.injEq]
  decide +kernel

/-- A naive datetime does not come back as it was. -/
theorem naive_changed_violated (loc : Stamp → Int) (d : Stamp) (h : Writable loc d)
    (hn : d.off = none) :
    ∃ d', stored loc (.date d) = .ok (.date d') ∧ d' ≠ d := by
  refine ⟨aware loc d, parse_iso loc _ h, ?_⟩
  intro e
  have := congrArg Stamp.off e
  simp [aware, hn] at this

/-- `2024-01-31T12:00:00`, `2024-13-01T00:00:00Z` and `2024-01-31T12:00:00.5+0530\n` match;
a date without a time and a time with seven digits of a fraction do not. -/
example : pat "2024-01-31T12:00:00".toList = some ⟨2024, 1, 31, 12, 0, 0, 0, none⟩ ∧
    (pat "2024-13-01T00:00:00Z".toList).map Stamp.valid = some false ∧
    pat "2024-01-31T12:00:00.5+0530\n".toList =
      some ⟨2024, 1, 31, 12, 0, 0, 500000, some 330⟩ ∧
    pat "2024-01-31".toList = none ∧ pat "2024-01-31T12:00:00.1234567".toList = none := by
  decide +kernel

/-- A record with two datetimes, one in New York, and strings: the hypotheses of
`stored_same_partial` hold. -/
def sampleRecord : J :=
  .dict (.cons "date".toList (.date ⟨2024, 2, 29, 23, 59, 59, 999999, some (-300)⟩)
    (.cons "msg_id".toList (.str "abc_2024-01-31T12:00:00".toList)
      (.cons "l".toList (.list (.cons (.date ⟨1, 1, 1, 0, 0, 0, 0, some 0⟩)
        (.cons (.num (-1)) .nil))) .nil)))

example : (∀ s ∈ strings sampleRecord, ¬ DateLike s) ∧ ∀ d ∈ dates sampleRecord, Good d := by
  constructor
  · intro s hs
    simp only [sampleRecord, strings, stringsD, stringsL, List.append_nil, List.nil_append,
      List.mem_singleton] at hs
    subst hs
    rintro ⟨d, hd⟩
    have := (pat_iff _ _).mpr hd
    revert this
    have : pat "abc_2024-01-31T12:00:00".toList = none := by decide +kernel
    rw [this]
    simp
  · intro d hd
    simp only [sampleRecord, dates, datesD, datesL, List.append_nil, List.nil_append,
      List.mem_append, List.mem_singleton] at hd
    rcases hd with rfl | rfl
    · exact ⟨by decide, -300, rfl, by decide⟩
    · exact ⟨by decide, 0, rfl, by decide⟩

end IPP.DB.Dates
