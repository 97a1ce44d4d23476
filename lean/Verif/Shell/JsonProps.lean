import Verif.Shell.Json
/-!
# `json.loads` inverts `json.dumps`
-/
namespace IPP.Shell

namespace Spec

def High (c : Nat) : Prop := 55296 ≤ c ∧ c ≤ 56319
def Low (c : Nat) : Prop := 56320 ≤ c ∧ c ≤ 57343

/-- strings whose code points are valid, without a high surrogate directly followed by a low one -/
def GoodStr (s : Str) : Prop := (∀ c ∈ s, c < 1114112) ∧ ∀ u a b v, s = u ++ a :: b :: v → ¬ (High a ∧ Low b)

mutual
/-- all strings in the value are good -/
def Good : J → Prop
  | .null => True
  | .bool _ => True
  | .num _ => True
  | .str s => GoodStr s
  | .arr l => GoodList l
  | .obj l => GoodObj l
def GoodList : List J → Prop
  | [] => True
  | v :: l => Good v ∧ GoodList l
def GoodObj : List (Str × J) → Prop
  | [] => True
  | (k, v) :: l => GoodStr k ∧ Good v ∧ GoodObj l
end

end Spec

/-! ## strings -/

theorem hexVal_hexDigit : ∀ n < 16, hexVal (hexDigit n) = some n := by decide

theorem hex4_uesc (n : Nat) (h : n < 65536) (rest : Str) : hex4 ((uesc n).drop 2 ++ rest) = some (n, rest) := by
  simp only [uesc, List.drop_succ_cons, List.drop_zero, List.cons_append, List.nil_append, hex4]
  rw [hexVal_hexDigit _ (by omega), hexVal_hexDigit _ (by omega), hexVal_hexDigit _ (by omega), hexVal_hexDigit _ (by omega)]
  simp only [Option.bind_eq_bind, Option.bind_some, Option.pure_def, Option.some.injEq, Prod.mk.injEq, and_true]
  omega

theorem uesc_eq (n : Nat) : uesc n = 92 :: 117 :: (uesc n).drop 2 := rfl

/-- what follows a high surrogate in the output is not the escape of a low one -/
def NoLow (r : Str) : Prop := ∀ r2, r = 92 :: 117 :: r2 → ∃ u r3, hex4 r2 = some (u, r3) ∧ ¬ Spec.Low u

theorem combine_noLow (u : Nat) (r : Str) (h : Spec.High u → NoLow r) : combine u r = some (u, r) := by
  unfold combine
  split
  · rename_i hu
    split
    · rename_i r2
      obtain ⟨u2, r3, h1, h2⟩ := h hu r2 rfl
      rw [h1]
      simp only [Option.bind_eq_bind, Option.bind_some]
      rw [if_neg (show ¬ (56320 ≤ u2 ∧ u2 ≤ 57343) from h2)]; rfl
    · rfl
  · rfl

theorem noLow_esc (c : Nat) (hc : c < 1114112) (hl : ¬ Spec.Low c) (r : Str) : NoLow (escChar c ++ r) := by
  intro r2 h
  unfold escChar at h
  split at h
  · simp at h
  split at h
  · simp at h
  split at h
  · simp at h
  split at h
  · simp at h
  split at h
  · simp at h
  split at h
  · simp at h
  split at h
  · simp at h
  split at h
  · simp only [List.cons_append, List.nil_append, List.cons.injEq] at h
    rename_i h92 _ _ _ _ _ _
    exact absurd h.1 h92
  split at h
  · rename_i hlt
    rw [uesc_eq] at h
    simp only [List.cons_append, List.cons.injEq, true_and] at h
    subst h
    exact ⟨c, r, hex4_uesc c hlt r, hl⟩
  · rw [uesc_eq] at h
    simp only [List.cons_append, List.append_assoc, List.cons.injEq, true_and] at h
    subst h
    refine ⟨_, _, hex4_uesc _ (by omega) _, ?_⟩
    simp only [Spec.Low]; omega

theorem noLow_quote (r : Str) : NoLow (34 :: r) := by intro r2 h; simp at h

theorem scan_u (fuel u : Nat) (hu : u < 65536) (r : Str) (h : Spec.High u → NoLow r) : scan (fuel + 1) (uesc u ++ r) = (scan fuel r).map fun (s, x) => (u :: s, x) := by
  rw [uesc_eq]
  simp only [List.cons_append]
  rw [scan]
  simp only [Nat.reduceEqDiff, if_false, if_true]
  rw [hex4_uesc u hu r]
  simp only [Option.bind_eq_bind, Option.bind_some]
  rw [combine_noLow u r h]
  simp only [Option.bind_some]
  cases scan fuel r <;> rfl

theorem combine_pair (u v w : Nat) (rest r3 : Str) (h : 55296 ≤ u ∧ u ≤ 56319) (h2 : 56320 ≤ v ∧ v ≤ 57343) (hh : hex4 rest = some (v, r3))
    (hw : 65536 + ((u - 55296) * 1024 + (v - 56320)) = w) : combine u (92 :: 117 :: rest) = some (w, r3) := by
  unfold combine
  rw [if_pos h]
  simp only [hh, Option.bind_eq_bind, Option.bind_some]
  rw [if_pos h2, hw]
  rfl

theorem scan_pair (fuel u v w : Nat) (r : Str) (h : 55296 ≤ u ∧ u ≤ 56319) (h2 : 56320 ≤ v ∧ v ≤ 57343) (hw : 65536 + ((u - 55296) * 1024 + (v - 56320)) = w) :
    scan (fuel + 1) (uesc u ++ (uesc v ++ r)) = (scan fuel r).map fun (s, x) => (w :: s, x) := by
  rw [uesc_eq u]
  simp only [List.cons_append]
  rw [scan]
  simp only [Nat.reduceEqDiff, if_false, if_true]
  rw [hex4_uesc u (by omega)]
  simp only [Option.bind_eq_bind, Option.bind_some]
  rw [uesc_eq v]
  simp only [List.cons_append]
  rw [combine_pair u v w _ r h h2 (hex4_uesc v (by omega) r) hw]
  simp only [Option.bind_some]
  cases scan fuel r <;> rfl

theorem scan_astral (fuel c : Nat) (hc : c < 1114112) (hge : 65536 ≤ c) (r : Str) :
    scan (fuel + 1) (uesc (55296 + (c - 65536) / 1024 % 1024) ++ uesc (56320 + (c - 65536) % 1024) ++ r) = (scan fuel r).map fun (s, x) => (c :: s, x) := by
  rw [List.append_assoc]
  exact scan_pair fuel _ _ c r (by omega) (by omega) (by omega)

theorem scan_esc (fuel c : Nat) (hc : c < 1114112) (r : Str) (h : Spec.High c → NoLow r) : scan (fuel + 1) (escChar c ++ r) = (scan fuel r).map fun (s, x) => (c :: s, x) := by
  have hb : ∀ e v : Nat, e ≠ 117 → backslash e = some v → scan (fuel + 1) (92 :: e :: r) = (scan fuel r).map fun (s, x) => (v :: s, x) := by
    intro e v he hv
    rw [scan]
    · rw [if_neg (by decide), if_pos rfl]
      simp only
      rw [hv]
      simp only [Option.bind_eq_bind, Option.bind_some]
      cases scan fuel r <;> rfl
    all_goals simp_all
  unfold escChar
  split
  · subst_vars; exact hb 34 34 (by decide) rfl
  split
  · subst_vars; exact hb 92 92 (by decide) rfl
  split
  · subst_vars; exact hb 110 10 (by decide) rfl
  split
  · subst_vars; exact hb 114 13 (by decide) rfl
  split
  · subst_vars; exact hb 116 9 (by decide) rfl
  split
  · subst_vars; exact hb 102 12 (by decide) rfl
  split
  · subst_vars; exact hb 98 8 (by decide) rfl
  split
  · rename_i h34 h92 _ _ _ _ _ hr
    simp only [List.cons_append, List.nil_append]
    rw [scan.eq_def]
    simp only [h34, h92, if_false]
    rw [if_neg (by omega)]
    cases scan fuel r <;> rfl
  split
  · rename_i hlt
    exact scan_u fuel c hlt r h
  · rename_i hge
    exact scan_astral fuel c hc (by omega) r

theorem goodStr_tail {c : Nat} {s : Str} (h : Spec.GoodStr (c :: s)) : Spec.GoodStr s :=
  ⟨fun x hx => h.1 x (List.mem_cons_of_mem _ hx), fun u a b v e => h.2 (c :: u) a b v (by rw [e]; rfl)⟩

theorem scan_string (s : Str) (hs : Spec.GoodStr s) (fuel : Nat) (hf : s.length < fuel) (rest : Str) : scan fuel (s.flatMap escChar ++ 34 :: rest) = some (s, rest) := by
  induction s generalizing fuel with
  | nil =>
    obtain ⟨n, rfl⟩ : ∃ n, fuel = n + 1 := ⟨fuel - 1, by simp at hf; omega⟩
    simp [scan]
  | cons c s ih =>
    obtain ⟨n, rfl⟩ : ∃ n, fuel = n + 1 := ⟨fuel - 1, by simp at hf; omega⟩
    simp only [List.flatMap_cons, List.append_assoc]
    rw [scan_esc n c (hs.1 c List.mem_cons_self), ih (goodStr_tail hs) n (by simpa using hf)]
    · rfl
    · intro hhigh
      cases s with
      | nil => exact noLow_quote rest
      | cons d t =>
        simp only [List.flatMap_cons, List.append_assoc]
        exact noLow_esc d (hs.1 d (by simp)) (fun hl => hs.2 [] c d t rfl ⟨hhigh, hl⟩) _

theorem escChar_length (c : Nat) : 1 ≤ (escChar c).length := by
  unfold escChar uesc
  repeat' split
  all_goals simp

theorem flatMap_length (s : Str) : s.length ≤ (s.flatMap escChar).length := by
  induction s with
  | nil => simp
  | cons c s ih => have := escChar_length c; simp only [List.flatMap_cons, List.length_append, List.length_cons]; omega

theorem scan_dump (s : Str) (hs : Spec.GoodStr s) (rest : Str) (n : Nat) (hn : (s.flatMap escChar ++ 34 :: rest).length < n) : scan n (s.flatMap escChar ++ 34 :: rest) = some (s, rest) := by
  have := flatMap_length s
  exact scan_string s hs n (by simp only [List.length_append, List.length_cons] at hn; omega) rest

/-! ## numbers -/

/-- what may follow a value -/
def Delim (r : Str) : Prop := r = [] ∨ ∃ c t, r = c :: t ∧ (c = 44 ∨ c = 93 ∨ c = 125)

theorem natOf_append (a : Str) (d : Nat) : natOf (a ++ [d]) = natOf a * 10 + (d - 48) := by simp [natOf]

theorem natOf_dec (n : Nat) : natOf (dec n) = n := by
  induction n using dec.induct with
  | case1 n h => rw [dec, if_pos h]; simp [natOf]
  | case2 n h ih => rw [dec, if_neg h, natOf_append, ih]; omega

theorem isDigit_dec (n : Nat) : ∀ c ∈ dec n, isDigit c = true := by
  induction n using dec.induct with
  | case1 n h => rw [dec, if_pos h]; simp [isDigit]; omega
  | case2 n h ih =>
    rw [dec, if_neg h]
    intro c hc
    rcases List.mem_append.1 hc with h1 | h1
    · exact ih c h1
    · simp only [List.mem_singleton] at h1; subst h1; simp [isDigit]; omega

theorem dec_head (n : Nat) (hn : n ≠ 0) : ∃ c t, dec n = c :: t ∧ c ≠ 48 := by
  induction n using dec.induct with
  | case1 n h => rw [dec, if_pos h]; exact ⟨_, _, rfl, by omega⟩
  | case2 n h ih =>
    obtain ⟨c, t, h1, h2⟩ := ih (by omega)
    rw [dec, if_neg h, h1]
    exact ⟨c, t ++ [48 + n % 10], rfl, h2⟩

theorem fin_delim (n : Nat) (r : Str) (h : Delim r) : scanNat.fin n r = some (n, r) := by
  unfold scanNat.fin
  rcases h with rfl | ⟨c, t, rfl, h⟩
  · rfl
  · split
    · rename_i heq; simp only [List.cons.injEq] at heq; omega
    · rename_i heq; simp only [List.cons.injEq] at heq; omega
    · rename_i heq; simp only [List.cons.injEq] at heq; omega
    · rfl

theorem takeWhile_digits (l r : Str) (hl : ∀ c ∈ l, isDigit c = true) (hr : Delim r) : (l ++ r).takeWhile isDigit = l ∧ (l ++ r).dropWhile isDigit = r := by
  induction l with
  | nil =>
    rcases hr with rfl | ⟨c, t, rfl, h⟩
    · simp
    · have : isDigit c = false := by rcases h with rfl | rfl | rfl <;> rfl
      simp [this]
  | cons c l ih =>
    have h1 := hl c List.mem_cons_self
    have h2 := ih (fun x hx => hl x (List.mem_cons_of_mem _ hx))
    simp [h1, h2.1, h2.2]

theorem scanNat_dec (n : Nat) (r : Str) (hr : Delim r) : scanNat (dec n ++ r) = some (n, r) := by
  by_cases hn : n = 0
  · subst hn
    have : dec 0 = [48] := by rw [dec]; rfl
    rw [this]
    exact fin_delim 0 r hr
  · obtain ⟨c, t, h1, h2⟩ := dec_head n hn
    have h3 := isDigit_dec n
    obtain ⟨h4, h5⟩ := takeWhile_digits (dec n) r h3 hr
    unfold scanNat
    split
    · rename_i heq; rw [h1] at heq; simp only [List.cons_append, List.cons.injEq] at heq; exact absurd heq.1 h2
    · rename_i _ d t' _ heq
      have hd : isDigit d = true := by
        rw [h1] at heq
        simp only [List.cons_append, List.cons.injEq] at heq
        rw [← heq.1]; exact h3 c (by rw [h1]; simp)
      simp only [hd, if_true]
      rw [h4, h5, natOf_dec]
      exact fin_delim n r hr
    · rename_i heq; rw [h1] at heq; simp at heq

/-! ## values -/

mutual
def depth : J → Nat
  | .arr l => 1 + depthArr l
  | .obj l => 1 + depthObj l
  | .null | .bool _ | .num _ | .str _ => 1
def depthArr : List J → Nat
  | [] => 0
  | v :: l => 1 + max (depth v) (depthArr l)
def depthObj : List (Str × J) → Nat
  | [] => 0
  | (_, v) :: l => 1 + max (depth v) (depthObj l)
end

/-- first characters of values -/
theorem dumps_head (v : J) : ∃ c t, dumps v = c :: t ∧ c ≠ 32 ∧ c ≠ 9 ∧ c ≠ 10 ∧ c ≠ 13 ∧ c ≠ 93 ∧ c ≠ 125 := by
  cases v with
  | null => exact ⟨110, l!"ull", rfl, by decide⟩
  | bool b => cases b with
    | true => exact ⟨116, l!"rue", rfl, by decide⟩
    | false => exact ⟨102, l!"alse", rfl, by decide⟩
  | num i =>
    cases i with
    | ofNat n =>
      have h3 := isDigit_dec n
      cases h : dec n with
      | nil =>
        have := natOf_dec n
        by_cases hn : n = 0
        · subst hn; rw [dec] at h; cases h
        · obtain ⟨c, t, h1, -⟩ := dec_head n hn; rw [h1] at h; cases h
      | cons c t =>
        have hc := h3 c (by rw [h]; simp)
        simp only [isDigit, decide_eq_true_eq] at hc
        exact ⟨c, t, by simp only [dumps, dumpInt]; exact h, by omega⟩
    | negSucc n => exact ⟨45, _, rfl, by decide⟩
  | str s => exact ⟨34, _, rfl, by decide⟩
  | arr l => exact ⟨91, _, rfl, by decide⟩
  | obj l => exact ⟨123, _, rfl, by decide⟩

theorem skipWs_dumps (v : J) (r : Str) : skipWs (dumps v ++ r) = dumps v ++ r := by
  obtain ⟨c, t, h, h1, h2, h3, h4, -⟩ := dumps_head v
  rw [h]
  simp only [List.cons_append, skipWs]
  rw [if_neg (by omega)]

theorem skipWs_sp (r : Str) : skipWs (32 :: r) = skipWs r := by simp [skipWs]
theorem skipWs_ne (c : Nat) (r : Str) (h : c ≠ 32 ∧ c ≠ 9 ∧ c ≠ 10 ∧ c ≠ 13) : skipWs (c :: r) = c :: r := by simp only [skipWs]; rw [if_neg (by omega)]

theorem delim_close (r : Str) : Delim (93 :: r) := Or.inr ⟨93, r, rfl, by simp⟩
theorem delim_brace (r : Str) : Delim (125 :: r) := Or.inr ⟨125, r, rfl, by simp⟩
theorem delim_comma (r : Str) : Delim (44 :: r) := Or.inr ⟨44, r, rfl, by simp⟩

theorem dumpsArr_ne (v : J) (l : List J) : dumpsArr (v :: l) = dumps v :: dumpsArr l := rfl

theorem parse_default (c : Nat) (t : Str) (n : Nat) (h1 : c ≠ 34) (h2 : c ≠ 123) (h3 : c ≠ 91) (h4 : c ≠ 45) : parse (n + 1) (c :: t) =
    match stripPrefix (l!"null") (c :: t) with
      | some r => some (.null, r)
      | none => match stripPrefix (l!"true") (c :: t) with
        | some r => some (.bool true, r)
        | none => match stripPrefix (l!"false") (c :: t) with
          | some r => some (.bool false, r)
          | none => (scanNat (c :: t)).map fun (n, r) => (.num n, r) := by
  rw [parse]
  · rfl
  · simp
  · intro r h; exact h1 (List.cons.inj h).1
  · intro r h; exact h2 (List.cons.inj h).1
  · intro r h; exact h3 (List.cons.inj h).1
  · intro r h; exact h4 (List.cons.inj h).1

mutual
theorem parse_dumps (v : J) (hv : Spec.Good v) (fuel : Nat) (hf : depth v ≤ fuel) (rest : Str) (hr : Delim rest) : parse fuel (dumps v ++ rest) = some (v, rest) := by
  cases v with
  | null =>
    obtain ⟨n, rfl⟩ : ∃ n, fuel = n + 1 := ⟨fuel - 1, by simp [depth] at hf; omega⟩
    show parse (n + 1) (110 :: (l!"ull" ++ rest)) = _
    rw [parse_default _ _ _ (by decide) (by decide) (by decide) (by decide)]
    rfl
  | bool b =>
    obtain ⟨n, rfl⟩ : ∃ n, fuel = n + 1 := ⟨fuel - 1, by simp [depth] at hf; omega⟩
    cases b with
    | true =>
      show parse (n + 1) (116 :: (l!"rue" ++ rest)) = _
      rw [parse_default _ _ _ (by decide) (by decide) (by decide) (by decide)]
      rfl
    | false =>
      show parse (n + 1) (102 :: (l!"alse" ++ rest)) = _
      rw [parse_default _ _ _ (by decide) (by decide) (by decide) (by decide)]
      rfl
  | num i =>
    obtain ⟨n, rfl⟩ : ∃ n, fuel = n + 1 := ⟨fuel - 1, by simp [depth] at hf; omega⟩
    cases i with
    | ofNat k =>
      simp only [dumps, dumpInt]
      have h3 := isDigit_dec k
      have hs := scanNat_dec k rest hr
      cases h : dec k with
      | nil =>
        by_cases hn : k = 0
        · subst hn; rw [dec] at h; cases h
        · obtain ⟨c, t, h1, -⟩ := dec_head k hn; rw [h1] at h; cases h
      | cons c t =>
        have hc := h3 c (by rw [h]; simp)
        simp only [isDigit, decide_eq_true_eq] at hc
        rw [h] at hs
        simp only [List.cons_append] at hs ⊢
        rw [parse_default _ _ _ (by omega) (by omega) (by omega) (by omega)]
        have e1 : stripPrefix (l!"null") (c :: (t ++ rest)) = none := by
          show (if 110 = c then _ else none) = none
          rw [if_neg (by omega)]
        have e2 : stripPrefix (l!"true") (c :: (t ++ rest)) = none := by
          show (if 116 = c then _ else none) = none
          rw [if_neg (by omega)]
        have e3 : stripPrefix (l!"false") (c :: (t ++ rest)) = none := by
          show (if 102 = c then _ else none) = none
          rw [if_neg (by omega)]
        rw [e1, e2, e3, hs]
        rfl
    | negSucc k =>
      simp only [dumps, dumpInt, List.cons_append]
      rw [parse, scanNat_dec (k + 1) rest hr]
      rfl
  | str s =>
    obtain ⟨n, rfl⟩ : ∃ n, fuel = n + 1 := ⟨fuel - 1, by simp [depth] at hf; omega⟩
    simp only [dumps, dumpStr, List.cons_append, List.append_assoc]
    rw [parse]
    simp only [List.nil_append]
    rw [scan_dump s (by simpa [Spec.Good] using hv) rest _ (by omega)]
    rfl
  | arr l =>
    obtain ⟨n, rfl⟩ : ∃ n, fuel = n + 1 := ⟨fuel - 1, by simp [depth] at hf; omega⟩
    simp only [dumps, List.cons_append, List.nil_append, List.append_assoc]
    cases l with
    | nil => rw [parse]; rfl
    | cons v l =>
      have ih := parseElems_dumps v l (by simpa [Spec.Good] using hv) n (by simp only [depth] at hf; omega) rest
      have hw : skipWs (joinComma (dumpsArr (v :: l)) ++ 93 :: rest) = joinComma (dumpsArr (v :: l)) ++ 93 :: rest := by
        cases l with
        | nil => exact skipWs_dumps v _
        | cons w l => simp only [dumpsArr, joinComma, List.append_assoc]; exact skipWs_dumps v _
      rw [parse, hw]
      have hne : ∀ r, joinComma (dumpsArr (v :: l)) ++ 93 :: rest ≠ 93 :: r := by
        obtain ⟨c, t, h, -, -, -, -, h5, -⟩ := dumps_head v
        intro r
        cases l with
        | nil => simp only [dumpsArr, joinComma, h, List.cons_append]; intro e; exact h5 (List.cons.inj e).1
        | cons w l => simp only [dumpsArr, joinComma, h, List.cons_append, List.append_assoc]; intro e; exact h5 (List.cons.inj e).1
      split
      · rename_i r heq; exact absurd heq (hne r)
      · rw [ih]; rfl
  | obj l =>
    obtain ⟨n, rfl⟩ : ∃ n, fuel = n + 1 := ⟨fuel - 1, by simp [depth] at hf; omega⟩
    simp only [dumps, List.cons_append, List.nil_append, List.append_assoc]
    cases l with
    | nil => rw [parse]; rfl
    | cons kv l =>
      obtain ⟨k, v⟩ := kv
      have ih := parseMembers_dumps k v l (by simpa [Spec.Good] using hv) n (by simp only [depth] at hf; omega) rest
      obtain ⟨t, ht⟩ : ∃ t, joinComma (dumpsObj ((k, v) :: l)) ++ 125 :: rest = 34 :: t := by
        cases l with
        | nil => exact ⟨_, rfl⟩
        | cons w l => obtain ⟨w1, w2⟩ := w; exact ⟨_, rfl⟩
      rw [parse, ht, skipWs_ne 34 t (by decide)]
      rw [ht] at ih
      simp only
      rw [ih]; rfl
termination_by fuel
theorem parseElems_dumps (v : J) (l : List J) (hv : Spec.GoodList (v :: l)) (fuel : Nat) (hf : depthArr (v :: l) ≤ fuel) (rest : Str) :
    parseElems fuel (joinComma (dumpsArr (v :: l)) ++ 93 :: rest) = some (v :: l, rest) := by
  obtain ⟨n, rfl⟩ : ∃ n, fuel = n + 1 := ⟨fuel - 1, by simp [depthArr] at hf; omega⟩
  simp only [depthArr] at hf
  simp only [Spec.GoodList] at hv
  rw [parseElems]
  cases l with
  | nil =>
    simp only [dumpsArr, joinComma]
    rw [parse_dumps v hv.1 n (by omega) _ (delim_close rest)]
    simp only [Option.bind_eq_bind, Option.bind_some]
    rw [skipWs_ne 93 rest (by decide)]
    rfl
  | cons w l =>
    simp only [dumpsArr, joinComma, List.append_assoc, List.cons_append, List.nil_append]
    rw [parse_dumps v hv.1 n (by omega) _ (delim_comma _)]
    simp only [Option.bind_eq_bind, Option.bind_some]
    rw [skipWs_ne 44 _ (by decide)]
    simp only [skipWs_sp]
    have hw : skipWs (joinComma (dumps w :: dumpsArr l) ++ 93 :: rest) = joinComma (dumpsArr (w :: l)) ++ 93 :: rest := by
      cases l with
      | nil => exact skipWs_dumps w _
      | cons x l => simp only [dumpsArr, joinComma, List.append_assoc]; exact skipWs_dumps w _
    rw [hw, parseElems_dumps w l hv.2 n (by omega) rest]
    rfl
termination_by fuel
theorem parseMembers_dumps (k : Str) (v : J) (l : List (Str × J)) (hv : Spec.GoodObj ((k, v) :: l)) (fuel : Nat) (hf : depthObj ((k, v) :: l) ≤ fuel) (rest : Str) :
    parseMembers fuel (joinComma (dumpsObj ((k, v) :: l)) ++ 125 :: rest) = some ((k, v) :: l, rest) := by
  obtain ⟨n, rfl⟩ : ∃ n, fuel = n + 1 := ⟨fuel - 1, by simp [depthObj] at hf; omega⟩
  simp only [depthObj] at hf
  simp only [Spec.GoodObj] at hv
  cases l with
  | nil =>
    simp only [dumpsObj, joinComma, dumpStr, List.append_assoc, List.cons_append, List.nil_append]
    rw [parseMembers, scan_dump k hv.1 _ _ (by omega)]
    simp only [Option.bind_eq_bind, Option.bind_some]
    rw [skipWs_ne 58 _ (by decide)]
    simp only [skipWs_sp, skipWs_dumps]
    rw [parse_dumps v hv.2.1 n (by omega) _ (delim_brace rest)]
    simp only [Option.bind_some]
    rw [skipWs_ne 125 rest (by decide)]
    rfl
  | cons w l =>
    obtain ⟨k', w⟩ := w
    simp only [dumpsObj, joinComma, dumpStr, List.append_assoc, List.cons_append, List.nil_append]
    rw [parseMembers, scan_dump k hv.1 _ _ (by omega)]
    simp only [Option.bind_eq_bind, Option.bind_some]
    rw [skipWs_ne 58 _ (by decide)]
    simp only [skipWs_sp, skipWs_dumps]
    rw [parse_dumps v hv.2.1 n (by omega) _ (delim_comma _)]
    simp only [Option.bind_some]
    rw [skipWs_ne 44 _ (by decide)]
    simp only [skipWs_sp]
    have ih := parseMembers_dumps k' w l hv.2.2 n (by omega) rest
    simp only [dumpsObj, dumpStr, List.append_assoc, List.cons_append, List.nil_append] at ih
    obtain ⟨t, ht⟩ : ∃ t, joinComma ((34 :: (k'.flatMap escChar ++ 34 :: 58 :: 32 :: dumps w)) :: dumpsObj l) ++ 125 :: rest = 34 :: t := by
      cases h : dumpsObj l with
      | nil => exact ⟨_, rfl⟩
      | cons x y => exact ⟨_, rfl⟩
    rw [ht] at ih ⊢
    rw [skipWs_ne 34 t (by decide), ih]
    rfl
termination_by fuel
end

mutual
theorem depth_le (v : J) : depth v ≤ (dumps v).length := by
  cases v with
  | null => simp [depth, dumps]
  | bool b => cases b <;> simp [depth, dumps]
  | num i =>
    obtain ⟨c, t, h, -⟩ := dumps_head (.num i)
    simp [depth, h]
  | str s => simp [depth, dumps, dumpStr]
  | arr l => have := depthArr_le l; simp only [depth, dumps, List.length_append, List.length_cons, List.length_nil]; omega
  | obj l => have := depthObj_le l; simp only [depth, dumps, List.length_append, List.length_cons, List.length_nil]; omega
theorem depthArr_le (l : List J) : depthArr l ≤ (joinComma (dumpsArr l)).length + 1 := by
  cases l with
  | nil => simp [depthArr]
  | cons v l =>
    have h1 := depth_le v
    have h2 := depthArr_le l
    cases l with
    | nil => simp only [depthArr, dumpsArr, joinComma]; omega
    | cons w l =>
      simp only [dumpsArr] at h2
      rw [depthArr]
      simp only [dumpsArr, joinComma, List.length_append, List.length_cons, List.length_nil]; omega
theorem depthObj_le (l : List (Str × J)) : depthObj l ≤ (joinComma (dumpsObj l)).length + 1 := by
  cases l with
  | nil => simp [depthObj]
  | cons kv l =>
    obtain ⟨k, v⟩ := kv
    have h1 := depth_le v
    have h2 := depthObj_le l
    cases l with
    | nil => simp only [depthObj, dumpsObj, joinComma, List.length_append]; omega
    | cons w l =>
      obtain ⟨k', w⟩ := w
      simp only [dumpsObj] at h2
      rw [depthObj]
      simp only [dumpsObj, joinComma, List.length_append, List.length_cons, List.length_nil] at h2 ⊢; omega
end

/-- `json.loads(json.dumps(v)) == v` for every value whose strings are good -/
theorem loads_dumps (v : J) (hv : Spec.Good v) : loads (dumps v) = some v := by
  unfold loads
  have h1 := skipWs_dumps v []
  rw [List.append_nil] at h1
  have h2 := parse_dumps v hv ((dumps v).length + 1) (Nat.le_succ_of_le (depth_le v)) [] (Or.inl rfl)
  rw [List.append_nil] at h2
  rw [h1, h2]
  rfl

/-- A high surrogate followed by a low one comes back as one character. -/
theorem loads_surrogates : loads (dumps (.str [0xD83D, 0xDE00])) = some (.str [0x1F600]) := by rfl

end IPP.Shell
