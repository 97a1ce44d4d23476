import Verif.DB.Mongo
import Verif.DB.Props

/-!
# The MongoDB task database (C99)
-/
namespace IPP.DB.Mongo
open IPP.DB

/-! ## Specification -/

/-- All dates are whole milliseconds. -/
def Whole : Val → Prop
  | .date t => t % 1000 = 0
  | _ => True

/-- A test on which MongoDB and C34 mean the same: no comparison of null with null by `$lte`/`$gte`, no remainder of a negative number, the field is
there exactly if it is not null, whole milliseconds. -/
def Plain (r : Rec) (k : Key) : Test → Prop
  | .lte v | .gte v => ¬ (r.get k = .null ∧ v = .null) ∧ Whole v
  | .lt v | .gt v | .eq v | .ne v => Whole v
  | .isin vs | .nin vs => ∀ v ∈ vs, Whole v
  | .mod m _ => 0 ≤ m ∧ ∀ n, r.get k = .num n → 0 ≤ n
  | .exist _ => present r k = true ↔ r.get k ≠ .null

/-- a query without `$glob` -/
def base (check : Check) : MCheck := check.map (fun kc => (kc.1, .base kc.2))

def FitsM (r : Rec) (check : Check) : Prop := ∀ kc ∈ check, match kc.2 with
  | .plain v => Whole v
  | .ops ts => ∀ t ∈ ts, Plain r kc.1 t

/-- the collection holds the same records as the map, with times in milliseconds -/
def Same (docs : Docs) (m : Id → Option Rec) : Prop := ∀ i, docOf docs i = (m i).map msRec

/-- documents and a plain map after a history of calls -/
def bothM (g : Glob) (ops : List Op) : Docs × (Id → Option Rec) :=
  ops.foldl (fun sm op => ((step g sm.1 op).1, mapStep sm.2 op (step g sm.1 op).2)) ([], fun _ => none)

/-! ## Storing -/

theorem ms_text (v : Val) (s : String) : ms v = .text s ↔ v = .text s := by cases v <;> simp [ms]
theorem ms_null (v : Val) : ms v = .null ↔ v = .null := by cases v <;> simp [ms]

theorem ms_whole {v : Val} (h : Whole v) : ms v = v := by
  cases v with
  | date t => have : t % 1000 = 0 := h; simp [ms, this]
  | _ => rfl

theorem whole_ms (v : Val) : Whole (ms v) := by
  cases v with
  | date t => show (t - t % 1000) % 1000 = 0; omega
  | _ => trivial

theorem ms_ms (v : Val) : ms (ms v) = ms v := ms_whole (whole_ms v)

theorem get_ms (r : Rec) (k : Key) : (msRec r).get k = ms (r.get k) := by
  induction r with
  | nil => rfl
  | cons a l ih =>
    unfold Rec.get msRec at ih ⊢
    by_cases h : a.1 = k
    · rw [List.map_cons, List.find?_cons_of_pos (by simpa using h), List.find?_cons_of_pos (by simpa using h)]; rfl
    · rw [List.map_cons, List.find?_cons_of_neg (by simpa using h), List.find?_cons_of_neg (by simpa using h)]; exact ih

theorem msRec_append (a b : Rec) : msRec (a ++ b) = msRec a ++ msRec b := by simp [msRec]

theorem ms_append_ms (a b : Rec) : msRec a ++ msRec b = msRec (a ++ b) := (msRec_append a b).symm

theorem docOf_some {docs : Docs} {i : Id} {r : Rec} (h : docOf docs i = some r) : r ∈ docs ∧ r.get "msg_id" = .text i := by
  unfold docOf at h
  exact ⟨List.mem_of_find?_eq_some h, by simpa using List.find?_some h⟩

theorem docOf_any (docs : Docs) (i : Id) : docs.any (fun x => x.get "msg_id" = .text i) = (docOf docs i).isSome := by
  unfold docOf
  rw [Bool.eq_iff_iff, List.any_eq_true, Option.isSome_iff_exists]
  constructor
  · rintro ⟨x, hx, h⟩
    cases hf : docs.find? (fun r => r.get "msg_id" = .text i) with
    | some y => exact ⟨y, rfl⟩
    | none => rw [List.find?_eq_none] at hf; exact absurd h (hf x hx)
  · rintro ⟨y, hy⟩
    exact ⟨y, List.mem_of_find?_eq_some hy, by simpa using List.find?_some hy⟩

theorem docOf_filter (docs : Docs) (i j : Id) :
    docOf (docs.filter (fun r => r.get "msg_id" ≠ .text i)) j = if j = i then none else docOf docs j := by
  unfold docOf
  induction docs with
  | nil => simp
  | cons a l ih =>
    by_cases ha : a.get "msg_id" = .text i
    · rw [List.filter_cons_of_neg (by simpa using ha), ih]
      by_cases hj : j = i
      · simp [hj]
      · rw [if_neg hj, if_neg hj, List.find?_cons_of_neg]
        simp only [ha, decide_eq_true_eq, Val.text.injEq]
        exact fun h => hj h.symm
    · rw [List.filter_cons_of_pos (by simpa using ha)]
      by_cases haj : a.get "msg_id" = .text j
      · have hj : ¬ j = i := by rintro rfl; exact ha haj
        rw [if_neg hj, List.find?_cons_of_pos (by simpa using haj), List.find?_cons_of_pos (by simpa using haj)]
      · rw [List.find?_cons_of_neg (by simpa using haj), List.find?_cons_of_neg (by simpa using haj), ih]

/-- an update keeps the id of the record -/
def KeepsId (i : Id) (new : Rec) : Prop := ∀ old : Rec, old.get "msg_id" = .text i → (new ++ old).get "msg_id" = .text i

theorem docOf_update (docs : Docs) (i j : Id) (new : Rec) (hk : KeepsId i new) :
    docOf (updateFirst i new docs) j = if j = i then (docOf docs i).map (fun r => new ++ r) else docOf docs j := by
  unfold docOf
  induction docs with
  | nil => simp [updateFirst]
  | cons a l ih =>
    unfold updateFirst
    by_cases ha : a.get "msg_id" = .text i
    · rw [if_pos ha]
      have hn := hk a ha
      by_cases hj : j = i
      · subst hj
        rw [if_pos rfl, List.find?_cons_of_pos (by simpa using hn), List.find?_cons_of_pos (by simpa using ha)]
        rfl
      · have h1 : ¬ (Val.text i = Val.text j) := by simp only [Val.text.injEq]; exact fun h => hj h.symm
        rw [if_neg hj, List.find?_cons_of_neg (by simpa [hn] using h1), List.find?_cons_of_neg (by simpa [ha] using h1)]
    · rw [if_neg ha]
      by_cases haj : a.get "msg_id" = .text j
      · have hj : ¬ j = i := by rintro rfl; exact ha haj
        rw [if_neg hj, List.find?_cons_of_pos (by simpa using haj), List.find?_cons_of_pos (by simpa using haj)]
      · rw [List.find?_cons_of_neg (by simpa using haj), ih]
        by_cases hj : j = i
        · subst hj; rw [if_pos rfl, if_pos rfl, List.find?_cons_of_neg (by simpa using ha)]
        · rw [if_neg hj, if_neg hj, List.find?_cons_of_neg (by simpa using haj)]

theorem get_absent {r : Rec} {k : Key} (h : ∀ kv ∈ r, kv.1 ≠ k) (old : Rec) : (r ++ old).get k = old.get k := by
  rw [get_append, if_neg]
  rintro ⟨kv, hkv, he⟩
  exact h kv hkv he

theorem own_keeps {i : Id} {new : Rec} (ho : Op.Own (.update i new)) : KeepsId i (msRec new) := by
  intro old hold
  rcases ho with h | h
  · by_cases he : ∃ kv ∈ msRec new, kv.1 = "msg_id"
    · rw [get_append, if_pos he, get_ms, h]; rfl
    · rw [get_append, if_neg he]; exact hold
  · rw [get_absent (fun kv hkv => by
      unfold msRec at hkv
      obtain ⟨kv', hkv', rfl⟩ := List.mem_map.1 hkv
      exact h kv' hkv')]
    exact hold

theorem same_step {g : Glob} {docs : Docs} {m : Id → Option Rec} {op : Op} (h : Same docs m) (ho : op.Own)
    (hn : ∀ c, op ≠ .dropMatching c) : Same (step g docs op).1 (mapStep m op (step g docs op).2) := by
  cases op with
  | add i r =>
    have hid : r.get "msg_id" = .text i := ho
    unfold step
    simp only [hid, docOf_any]
    by_cases hs : (docOf docs i).isSome
    · simp only [hs, if_true]
      intro j; simpa [mapStep] using h j
    · simp only [hs, if_false, Bool.false_eq_true]
      have hnone : docs.find? (fun r => r.get "msg_id" = .text i) = none := by simpa [docOf] using hs
      intro j
      simp only [mapStep, Bool.false_eq_true, if_false]
      unfold docOf
      rw [List.find?_append]
      by_cases e : j = i
      · subst e
        rw [hnone, if_pos rfl]
        rw [List.find?_cons_of_pos (by simp [get_ms, hid, ms])]
        rfl
      · rw [if_neg e, List.find?_cons_of_neg, List.find?_nil, Option.or_none]
        · exact h j
        · simp only [get_ms, hid, ms, decide_eq_true_eq, Val.text.injEq]
          exact fun h => e h.symm
  | update i new =>
    unfold step
    simp only
    split
    · intro j; simpa [mapStep] using h j
    · intro j
      simp only [docOf_update _ _ _ _ (own_keeps ho), mapStep, Bool.false_eq_true, if_false]
      by_cases e : j = i
      · subst e
        rw [if_pos rfl, if_pos rfl, h j]
        cases m j with
        | none => rfl
        | some r => simp [msRec_append]
      · rw [if_neg e, if_neg e]; exact h j
  | drop i =>
    intro j
    simp only [step, mapStep, Bool.false_eq_true, if_false]
    rw [docOf_filter]
    by_cases e : j = i
    · simp [e]
    · rw [if_neg e, if_neg e]; exact h j
  | dropMatching c => exact absurd rfl (hn c)

/-- **C99 (a map of records)** After any history of additions, updates and deletions, the database has the same ids as a plain map, and for each the record of the map,
with times in milliseconds. -/
theorem mongo_like_map (g : Glob) (ops : List Op) (ho : ∀ op ∈ ops, op.Own) (hn : ∀ op ∈ ops, ∀ c, op ≠ .dropMatching c) :
    Same (bothM g ops).1 (bothM g ops).2 := by
  have gen : ∀ (ops : List Op), (∀ op ∈ ops, op.Own) → (∀ op ∈ ops, ∀ c, op ≠ .dropMatching c) → ∀ sm : Docs × (Id → Option Rec), Same sm.1 sm.2 →
      Same (ops.foldl (fun sm op => ((step g sm.1 op).1, mapStep sm.2 op (step g sm.1 op).2)) sm).1
        (ops.foldl (fun sm op => ((step g sm.1 op).1, mapStep sm.2 op (step g sm.1 op).2)) sm).2 := by
    intro ops
    induction ops with
    | nil => intro _ _ sm h; exact h
    | cons op ops ih =>
      intro ho hn sm h
      exact ih (fun o h => ho o (List.mem_cons_of_mem _ h)) (fun o h => hn o (List.mem_cons_of_mem _ h)) _
        (same_step h (ho op (List.mem_cons_self ..)) (hn op (List.mem_cons_self ..)))
  exact gen ops ho hn _ (fun i => rfl)

/-- The ids of the documents are different. -/
def UniqId (docs : Docs) : Prop := (docs.map (fun r => r.get "msg_id")).Nodup

theorem updateFirst_ids (i : Id) (new : Rec) (hk : KeepsId i new) : ∀ docs : Docs,
    (updateFirst i new docs).map (fun r => r.get "msg_id") = docs.map (fun r => r.get "msg_id") := by
  intro docs
  induction docs with
  | nil => rfl
  | cons a l ih =>
    unfold updateFirst
    by_cases ha : a.get "msg_id" = .text i
    · rw [if_pos ha]; simp only [List.map_cons]; rw [hk a ha, ha]
    · rw [if_neg ha]; simp only [List.map_cons]; rw [ih]

theorem uniq_step {g : Glob} {docs : Docs} {op : Op} (h : UniqId docs) (ho : op.Own) : UniqId (step g docs op).1 := by
  cases op with
  | add i r =>
    have hid : r.get "msg_id" = .text i := ho
    unfold step
    simp only
    split
    · exact h
    · rename_i hany
      unfold UniqId
      rw [List.map_append, List.nodup_append]
      refine ⟨h, by simp, ?_⟩
      intro v hv w hw
      simp only [List.map_cons, List.map_nil, List.mem_singleton] at hw
      subst hw
      rintro rfl
      apply hany
      obtain ⟨x, hx, he⟩ := List.mem_map.1 hv
      rw [get_ms, hid] at he
      exact List.any_eq_true.2 ⟨x, hx, by rw [hid]; simpa [ms] using he⟩
  | update i new =>
    unfold step
    simp only
    split
    · exact h
    · unfold UniqId; simp only; rw [updateFirst_ids _ _ (own_keeps ho)]; exact h
  | drop i => exact (List.Sublist.map _ (List.filter_sublist ..)).nodup h
  | dropMatching c =>
    unfold step
    simp only
    split
    · exact h
    · exact (List.Sublist.map _ (List.filter_sublist ..)).nodup h

theorem run_uniq (g : Glob) (ops : List Op) (ho : ∀ op ∈ ops, op.Own) : UniqId (run g ops) := by
  have gen : ∀ (ops : List Op), (∀ op ∈ ops, op.Own) → ∀ d : Docs, UniqId d → UniqId (ops.foldl (fun d op => (step g d op).1) d) := by
    intro ops
    induction ops with
    | nil => intro _ d h; exact h
    | cons op ops ih =>
      intro ho d h
      exact ih (fun o h => ho o (List.mem_cons_of_mem _ h)) _ (uniq_step h (ho op (List.mem_cons_self ..)))
  exact gen ops ho [] List.nodup_nil

/-- **C99 (errors)** Exactly the addition of an id that is there raises, of the calls the hub makes; it changes nothing. -/
theorem mongo_raises_iff (g : Glob) (docs : Docs) (i : Id) (r : Rec) (hr : r.get "msg_id" = .text i) (new : Rec)
    (hnew : Op.Own (.update i new)) :
    ((step g docs (.add i r)).2 = true ↔ (docOf docs i).isSome) ∧ ((step g docs (.add i r)).2 = true → (step g docs (.add i r)).1 = docs) ∧
      (step g docs (.update i new)).2 = false ∧ (step g docs (.drop i)).2 = false := by
  have hadd : step g docs (.add i r) = if (docOf docs i).isSome then (docs, true) else (docs ++ [msRec r], false) := by
    simp only [step, hr, docOf_any]
  refine ⟨?_, ?_, ?_, rfl⟩
  · rw [hadd]; by_cases h : (docOf docs i).isSome <;> simp [h]
  · rw [hadd]; by_cases h : (docOf docs i).isSome <;> simp [h]
  · unfold step
    simp only
    rw [if_neg]
    simp only [Bool.and_eq_true, decide_eq_true_eq, ne_eq]
    rintro ⟨⟨⟨h1, h2⟩, _⟩, _⟩
    rcases hnew with h | h
    · exact absurd h h2
    · unfold present at h1
      obtain ⟨kv, hkv, he⟩ := List.any_eq_true.1 h1
      exact absurd (by simpa using he) (h kv hkv)

/-! ## Queries -/

theorem less_sat {a b : Val} : less a b = true ↔ Less a b := by
  unfold less Less
  cases a <;> cases b <;> simp [pyLt]

theorem lessEq_sat {a b : Val} (h : ¬ (a = .null ∧ b = .null)) : lessEq a b = true ↔ LessEq a b := by
  unfold lessEq LessEq
  cases a <;> cases b <;> simp_all [pyLe]

theorem test_doc {r : Rec} {k : Key} {t : Test} (hp : Plain r k t) (hl : legalTest t = true) :
    testDoc r k (msTest t) = true ↔ t.Sat (r.get k) := by
  cases t with
  | lt v => rw [msTest, ms_whole hp]; exact less_sat
  | gt v => rw [msTest, ms_whole hp]; exact less_sat
  | eq v => rw [msTest, ms_whole hp]; simp [testDoc, Test.Sat]
  | ne v => rw [msTest, ms_whole hp]; simp [testDoc, Test.Sat]
  | lte v => rw [msTest, ms_whole hp.2]; exact lessEq_sat hp.1
  | gte v => rw [msTest, ms_whole hp.2]; exact lessEq_sat (fun h => hp.1 ⟨h.2, h.1⟩)
  | isin vs =>
    have : vs.map ms = vs := by
      have : vs.map ms = vs.map id := List.map_congr_left (fun v hv => ms_whole (hp v hv))
      simpa using this
    rw [msTest, this]; simp [testDoc, Test.Sat]
  | nin vs =>
    have : vs.map ms = vs := by
      have : vs.map ms = vs.map id := List.map_congr_left (fun v hv => ms_whole (hp v hv))
      simpa using this
    rw [msTest, this]; simp [testDoc, Test.Sat]
  | mod m q =>
    have hm : m ≠ 0 := by simpa [legalTest] using hl
    rw [msTest]
    · simp only [testDoc, Test.Sat]
      cases hv : r.get k with
      | num n =>
        have hn := hp.2 n hv
        have : n.tmod m = n.fmod m := by
          rw [Int.tmod_eq_emod_of_nonneg hn, Int.fmod_eq_emod_of_nonneg _ hp.1]
        simp [this, hm]
      | _ => simp
    all_goals simp
  | exist b =>
    rw [msTest]
    · simp only [testDoc, Test.Sat, decide_eq_true_eq]
      have : present r k = true ↔ r.get k ≠ .null := hp
      cases hb : present r k <;> cases b <;> simp_all
    all_goals simp

theorem match_base {g : Glob} {r : Rec} {check : Check} (hf : FitsM r check) (hl : ∀ kc ∈ check, legal (.base kc.2) = true) :
    matchDoc g (base check) r = true ↔ Sat r check := by
  unfold matchDoc base Sat
  rw [List.all_map, List.all_eq_true]
  constructor
  all_goals
    intro h kc hkc
    have h1 := h kc hkc
    have h2 := hf kc hkc
    have h3 := hl kc hkc
    obtain ⟨k, c⟩ := kc
    cases c with
    | plain v =>
      simp only [Function.comp, condDoc, Cond.Sat] at h1 h2 ⊢
      rw [ms_whole h2] at *
      simpa using h1
    | ops ts =>
      simp only [Function.comp, condDoc, Cond.Sat, List.all_map, List.all_eq_true, legal] at h1 h2 h3 ⊢
      intro t ht
      have h4 := test_doc (h2 t ht) (h3 t ht)
      first
        | exact h4.1 (h1 t ht)
        | exact h4.2 (h1 t ht)

mutual
/-- no `$glob` anywhere -/
def NoGlob : J → Prop
  | .leaf _ => True
  | .list l => NoGlobL l
  | .dict l => "$glob" ∉ keysOf l ∧ NoGlobD l
def NoGlobL : List J → Prop
  | [] => True
  | x :: xs => NoGlob x ∧ NoGlobL xs
def NoGlobD : List (Key × J) → Prop
  | [] => True
  | (_, x) :: xs => NoGlob x ∧ NoGlobD xs
end

mutual
/-- **C99 (translation)** A query without `$glob` reaches the server as it is, however deep it is. -/
theorem translate_same (g : Glob) : ∀ j : J, NoGlob j → translate g j = some j
  | .leaf _, _ => by simp [translate]
  | .list l, h => by
    rw [NoGlob] at h
    rw [translate, transL_same g l h]; rfl
  | .dict l, h => by
    rw [NoGlob] at h
    rw [translate, if_neg h.1, transD_same g l h.2]; rfl
theorem transL_same (g : Glob) : ∀ l : List J, NoGlobL l → transL g l = some l
  | [], _ => by simp [transL]
  | x :: xs, h => by
    rw [NoGlobL] at h
    rw [transL, translate_same g x h.1, transL_same g xs h.2]
theorem transD_same (g : Glob) : ∀ l : List (Key × J), NoGlobD l → transD g l = some l
  | [], _ => by simp [transD]
  | (k, x) :: xs, h => by
    rw [NoGlobD] at h
    rw [transD, translate_same g x h.1, transD_same g xs h.2]
end

mutual
/-- **C99 (translation)** No `$glob` reaches the server: what `_translate` gives has none. -/
theorem translate_noGlob (g : Glob) : ∀ (j j' : J), translate g j = some j' → NoGlob j'
  | .leaf v, j', h => by
    simp [translate] at h; subst h; simp [NoGlob]
  | .list l, j', h => by
    rw [translate, Option.map_eq_some_iff] at h
    obtain ⟨l', hl, rfl⟩ := h
    rw [NoGlob]
    exact transL_noGlob g l l' hl
  | .dict l, j', h => by
    rw [translate] at h
    by_cases hk : "$glob" ∈ keysOf l
    · rw [if_pos hk, Option.map_eq_some_iff] at h
      obtain ⟨p, _, rfl⟩ := h
      simp [NoGlob, NoGlobD, keysOf]
    · rw [if_neg hk, Option.map_eq_some_iff] at h
      obtain ⟨l', hl, rfl⟩ := h
      have := transD_noGlob g l l' hl
      rw [NoGlob]
      exact ⟨by rw [this.1]; exact hk, this.2⟩
theorem transL_noGlob (g : Glob) : ∀ (l l' : List J), transL g l = some l' → NoGlobL l'
  | [], l', h => by simp [transL] at h; subst h; simp [NoGlobL]
  | x :: xs, l', h => by
    rw [transL] at h
    cases hx : translate g x with
    | none => rw [hx] at h; cases h
    | some y =>
      cases hxs : transL g xs with
      | none => rw [hx, hxs] at h; cases h
      | some ys =>
        rw [hx, hxs] at h
        cases h
        rw [NoGlobL]
        exact ⟨translate_noGlob g x y hx, transL_noGlob g xs ys hxs⟩
theorem transD_noGlob (g : Glob) : ∀ (l l' : List (Key × J)), transD g l = some l' → keysOf l' = keysOf l ∧ NoGlobD l'
  | [], l', h => by simp [transD] at h; subst h; simp [NoGlobD]
  | (k, x) :: xs, l', h => by
    rw [transD] at h
    cases hx : translate g x with
    | none => rw [hx] at h; cases h
    | some y =>
      cases hxs : transD g xs with
      | none => rw [hx, hxs] at h; cases h
      | some ys =>
        rw [hx, hxs] at h
        cases h
        have := transD_noGlob g xs ys hxs
        rw [NoGlobD]
        exact ⟨by simp [keysOf] at this ⊢; exact this.1, translate_noGlob g x y hx, this.2⟩
end

theorem encTest_key (t : Test) : (encTest t).1 ≠ "$glob" := by cases t <;> (simp only [encTest]; decide)

theorem leaves_noGlob : ∀ vs : List Val, NoGlobL (vs.map J.leaf)
  | [] => by simp [NoGlobL]
  | v :: vs => by rw [List.map_cons, NoGlobL]; exact ⟨by simp [NoGlob], leaves_noGlob vs⟩

theorem encTest_noGlob (t : Test) : NoGlob (encTest t).2 := by
  cases t with
  | isin vs => simp only [encTest, NoGlob]; exact leaves_noGlob vs
  | nin vs => simp only [encTest, NoGlob]; exact leaves_noGlob vs
  | mod m r => simp [encTest, NoGlob, NoGlobL]
  | _ => simp [encTest, NoGlob]

theorem tests_noGlobD : ∀ ts : List Test, NoGlobD (ts.map encTest)
  | [] => by simp [NoGlobD]
  | t :: ts => by
    rw [List.map_cons]
    have : encTest t = ((encTest t).1, (encTest t).2) := rfl
    rw [this, NoGlobD]
    exact ⟨encTest_noGlob t, tests_noGlobD ts⟩

theorem tests_noGlob (ts : List Test) : NoGlob (.dict (ts.map encTest)) := by
  rw [NoGlob]
  refine ⟨?_, tests_noGlobD ts⟩
  unfold keysOf
  simp only [List.map_map, List.mem_map, Function.comp, not_exists, not_and]
  intro t _ h
  exact encTest_key t h

/-- **C99 (translation of conditions)** Exactly a `$glob` together with other operators is refused; alone it becomes `$regex`; every other condition is unchanged. -/
theorem translate_cond (g : Glob) (c : MCond) : translate g (encCond c) = (serverCond g c).map (encS g) := by
  cases c with
  | base c =>
    cases c with
    | plain v => simp [encCond, translate, serverCond, encS]
    | ops ts => exact translate_same g _ (tests_noGlob ts)
  | glob p => simp [encCond, translate, serverCond, encS, keysOf, onlyGlob]
  | globAnd p t ts => simp [encCond, translate, serverCond, keysOf, onlyGlob]

theorem translate_enc (g : Glob) (check : MCheck) (hk : ∀ kc ∈ check, kc.1 ≠ "$glob") :
    (translate g (enc check)).isNone = true ↔ ∃ kc ∈ check, (serverCond g kc.2).isNone = true := by
  have key : ∀ l : MCheck, (transD g (l.map (fun kc => (kc.1, encCond kc.2)))).isNone = true ↔
      ∃ kc ∈ l, (serverCond g kc.2).isNone = true := by
    intro l
    induction l with
    | nil => simp [transD]
    | cons x xs ih =>
      rw [List.map_cons, transD, translate_cond]
      simp only [List.mem_cons, exists_eq_or_imp]
      rw [← ih]
      cases serverCond g x.2 <;> cases transD g (xs.map (fun kc => (kc.1, encCond kc.2))) <;> simp
  rw [enc, translate, if_neg]
  · rw [Option.isNone_map]; exact key check
  · unfold keysOf
    simp only [List.map_map, List.mem_map, Function.comp, not_exists, not_and]
    exact fun kc hkc => hk kc hkc

/-- **C99 (queries)** `find_records` answers every query without `$glob` (and without a remainder of division by zero) with exactly the records that satisfy every condition. -/
theorem mongo_find_exact (g : Glob) (docs : Docs) (check : Check) (hk : ∀ kc ∈ check, kc.1 ≠ "$glob")
    (hl : ∀ kc ∈ check, legal (.base kc.2) = true) (hf : ∀ r ∈ docs, FitsM r check) :
    ∃ rs, find g docs (base check) none = some rs ∧ ∀ r, r ∈ rs ↔ r ∈ docs ∧ Sat r check := by
  have h1 : (translate g (enc (base check))).isNone = false := by
    cases h : (translate g (enc (base check))).isNone with
    | false => rfl
    | true =>
      rw [translate_enc g (base check) (by
        intro kc hkc
        obtain ⟨kc', h1, rfl⟩ := List.mem_map.1 hkc
        exact hk kc' h1)] at h
      obtain ⟨kc, hkc, hn⟩ := h
      obtain ⟨kc', _, rfl⟩ := List.mem_map.1 hkc
      simp [serverCond] at hn
  have h2 : (base check).any (fun kc => !legal kc.2) = false := by
    rw [List.any_eq_false]
    intro kc hkc
    obtain ⟨kc', h1, rfl⟩ := List.mem_map.1 hkc
    simp [hl kc' h1]
  refine ⟨docs.filter (matchDoc g (base check)), ?_, ?_⟩
  · unfold find
    rw [h1, h2]
    simp only [Bool.false_eq_true, if_false]
    congr 1
    have : (project none) = id := rfl
    rw [this, List.map_id]
  · intro r
    rw [List.mem_filter]
    constructor
    · rintro ⟨a, b⟩; exact ⟨a, (match_base (hf r a) hl).1 b⟩
    · rintro ⟨a, b⟩; exact ⟨a, (match_base (hf r a) hl).2 b⟩

/-- **C99 (`$glob`)** A query with one pattern gives exactly the records whose field is a text that the pattern matches. -/
theorem mongo_glob_exact (g : Glob) (docs : Docs) (k : Key) (p : String) (hk : k ≠ "$glob") :
    ∃ rs, find g docs [(k, .glob p)] none = some rs ∧
      ∀ r, r ∈ rs ↔ r ∈ docs ∧ ∃ s, r.get k = .text s ∧ g.matchText p s = true := by
  refine ⟨docs.filter (matchDoc g [(k, .glob p)]), ?_, ?_⟩
  · unfold find
    have h1 : (translate g (enc [(k, .glob p)])).isNone = false := by
      cases h : (translate g (enc [(k, .glob p)])).isNone with
      | false => rfl
      | true =>
        rw [translate_enc g _ (by simpa using hk)] at h
        simp [serverCond] at h
    rw [h1]
    simp only [Bool.false_eq_true, if_false, List.any_cons, legal, Bool.not_true, List.any_nil, Bool.or_self]
    congr 1
    have : (project none) = id := rfl
    rw [this, List.map_id]
  · intro r
    rw [List.mem_filter]
    unfold matchDoc
    simp only [List.all_cons, List.all_nil, Bool.and_true, condDoc]
    cases hv : r.get k <;> simp

theorem get_filter (r : Rec) (k : Key) (p : Key → Bool) : Rec.get (r.filter (fun kv => p kv.1)) k = if p k then r.get k else .null := by
  induction r with
  | nil => simp [Rec.get]
  | cons a l ih =>
    unfold Rec.get at ih ⊢
    by_cases ha : p a.1 = true
    · rw [List.filter_cons_of_pos (by simpa using ha)]
      by_cases hk : a.1 = k
      · subst hk
        rw [List.find?_cons_of_pos (by simp), List.find?_cons_of_pos (by simp), if_pos ha]
      · rw [List.find?_cons_of_neg (by simpa using hk), List.find?_cons_of_neg (by simpa using hk)]; exact ih
    · rw [List.filter_cons_of_neg (by simpa using ha)]
      by_cases hk : a.1 = k
      · subst hk
        rw [ih, if_neg ha, if_neg ha]
      · rw [ih, List.find?_cons_of_neg (by simpa using hk)]

/-- **C99 (fields)** With a non-empty list of keys each record of the answer has exactly these fields and `msg_id`, with the values that are stored. -/
theorem mongo_keys (k0 : Key) (ks : List Key) (r : Rec) (k : Key) :
    (project (some (k0 :: ks)) r).get k = if k ∈ "msg_id" :: k0 :: ks then r.get k else .null := by
  unfold project
  have h := get_filter r k (fun x => decide (x ∈ if "msg_id" ∈ (k0 :: ks) then k0 :: ks else (k0 :: ks) ++ ["msg_id"]))
  simp only [decide_eq_true_eq] at h ⊢
  rw [h]
  by_cases hm : "msg_id" ∈ (k0 :: ks)
  · simp only [hm, if_true]
    by_cases hk : k ∈ (k0 :: ks)
    · rw [if_pos hk, if_pos (List.mem_cons_of_mem _ hk)]
    · rw [if_neg hk, if_neg]
      rw [List.mem_cons]
      rintro (rfl | h)
      · exact hk hm
      · exact hk h
  · simp only [hm, if_false, List.mem_append, List.mem_singleton]
    by_cases hk : k ∈ (k0 :: ks) ∨ k = "msg_id"
    · rw [if_pos hk, if_pos]
      rw [List.mem_cons]
      exact hk.symm
    · rw [if_neg hk, if_neg]
      rw [List.mem_cons]
      exact fun h => hk h.symm

/-- **C99 (the same answers as DictDB)** On the same records, for queries that DictDB answers, and on which neither is known to be wrong. -/
theorem mongo_agrees_partial (g : Glob) (s : State) (check : Check) (rs : List Rec) (hg : NoGt check) (hp : PlainLast check)
    (hk : ∀ kc ∈ check, kc.1 ≠ "$glob") (hl : ∀ kc ∈ check, legal (.base kc.2) = true) (hf : ∀ x ∈ s.records, FitsM x.2 check)
    (h : IPP.DB.find s check none = some rs) : find g (s.records.map Prod.snd) (base check) none = some rs := by
  classical
  have h' := find_exact_partial s check rs hg hp h
  obtain ⟨rs', h1, _⟩ := mongo_find_exact g (s.records.map Prod.snd) check hk hl (by
    intro r hr
    obtain ⟨x, hx, rfl⟩ := List.mem_map.1 hr
    exact hf x hx)
  have h2 : find g (s.records.map Prod.snd) (base check) none = some ((s.records.map Prod.snd).filter (matchDoc g (base check))) := by
    unfold find at h1 ⊢
    split
    · rename_i hc; rw [if_pos hc] at h1; cases h1
    · rename_i hc
      rw [if_neg hc] at h1
      split
      · rename_i hd; rw [if_pos hd] at h1; cases h1
      · have : (project none) = id := rfl
        rw [this, List.map_id]
  rw [h2, h']
  congr 1
  apply List.filter_congr
  intro r hr
  obtain ⟨x, hx, rfl⟩ := List.mem_map.1 hr
  rw [Bool.eq_iff_iff, match_base (hf x hx) hl]
  simp

/-- **C99 (deleting by a query)** `drop_matching_records` removes exactly the records that `find_records` gives for the same query, or raises and removes nothing. -/
theorem mongo_drop_exact (g : Glob) (docs : Docs) (check : Check) (hk : ∀ kc ∈ check, kc.1 ≠ "$glob") :
    match find g docs (base check) none with
    | some rs => (step g docs (.dropMatching check)).2 = false ∧
        ∀ r, r ∈ (step g docs (.dropMatching check)).1 ↔ r ∈ docs ∧ r ∉ rs
    | none => step g docs (.dropMatching check) = (docs, true) := by
  have h1 : (translate g (enc (base check))).isNone = false := by
    cases h : (translate g (enc (base check))).isNone with
    | false => rfl
    | true =>
      rw [translate_enc g (base check) (by
        intro kc hkc
        obtain ⟨kc', h1, rfl⟩ := List.mem_map.1 hkc
        exact hk kc' h1)] at h
      obtain ⟨kc, hkc, hn⟩ := h
      obtain ⟨kc', _, rfl⟩ := List.mem_map.1 hkc
      simp [serverCond] at hn
  have h2 : (base check).any (fun kc => !legal kc.2) = check.any (fun kc => !legal (.base kc.2)) := by
    unfold base; rw [List.any_map]; rfl
  unfold find
  rw [h1, h2]
  simp only [Bool.false_eq_true, if_false]
  by_cases hl : check.any (fun kc => !legal (.base kc.2)) = true
  · rw [if_pos hl]
    simp only [step, hl, if_true]
  · rw [if_neg hl]
    have : (project none) = id := rfl
    rw [this, List.map_id]
    simp only [step, hl, if_false, Bool.false_eq_true, List.mem_filter, true_and]
    intro r
    unfold base
    constructor
    · rintro ⟨a, b⟩
      exact ⟨a, fun h => by rw [h.2] at b; cases b⟩
    · rintro ⟨a, b⟩
      refine ⟨a, ?_⟩
      cases hm : matchDoc g (check.map (fun kc => (kc.1, MCond.base kc.2))) r with
      | false => rfl
      | true => exact absurd ⟨a, hm⟩ b

/-! ## The history -/

/-- **C99 (the history)** With records that all have a submission time, the history is DictDB's. -/
theorem mongo_history (s : State) (hs : ∀ x ∈ s.records, ∃ d, submitted x.2 = some d) (ho : ∀ x ∈ s.records, x.2.get "msg_id" = .text x.1) :
    history (s.records.map Prod.snd) = (IPP.DB.history s).map Val.text := by
  unfold history IPP.DB.history stamped
  have h1 : (s.records.map Prod.snd).filter (fun r => submitted r = none) = [] := by
    rw [List.filter_eq_nil_iff]
    intro r hr
    obtain ⟨x, hx, rfl⟩ := List.mem_map.1 hr
    obtain ⟨d, hd⟩ := hs x hx
    simp [hd]
  have h2 : (s.records.map Prod.snd).filterMap stampOf = s.records.filterMap (fun x => (submitted x.2).map (fun d => (d, x.1))) := by
    rw [List.filterMap_map]
    have gen : ∀ l : List (Id × Rec), (∀ x ∈ l, (∃ d, submitted x.2 = some d) ∧ x.2.get "msg_id" = .text x.1) →
        l.filterMap (stampOf ∘ Prod.snd) = l.filterMap (fun x => (submitted x.2).map (fun d => (d, x.1))) := by
      intro l
      induction l with
      | nil => intro _; rfl
      | cons x xs ih =>
        intro h
        obtain ⟨⟨d, hd⟩, hi⟩ := h x (List.mem_cons_self ..)
        have h1 : (stampOf ∘ Prod.snd) x = some (d, x.1) := by simp [stampOf, hd, hi]
        have h2 : (fun x : Id × Rec => (submitted x.2).map (fun d => (d, x.1))) x = some (d, x.1) := by simp [hd]
        rw [List.filterMap_cons_some h1, List.filterMap_cons_some (f := fun x : Id × Rec => (submitted x.2).map (fun d => (d, x.1))) h2, ih (fun y hy => h y (List.mem_cons_of_mem _ hy))]
    exact gen s.records (fun x hx => ⟨hs x hx, ho x hx⟩)
  rw [h1, h2]
  simp [List.map_map, Function.comp]

/-! ## Violations -/

/-- some pattern language -/
def exGlob : Glob := ⟨id, fun p s => p == s⟩

/-- **C99 violated (times)**: a time with microseconds does not read back, … -/
theorem microseconds_violated :
    (docOf (step exGlob [] (.add "a" [("msg_id", .text "a"), ("submitted", .date 1500)])).1 "a").map (fun r => r.get "submitted") =
      some (.date 1000) := by decide +kernel

/-- … and of two records submitted in the same millisecond the later one is not after the time of the earlier one. -/
theorem same_ms_violated :
    find exGlob (run exGlob [.add "a" [("msg_id", .text "a"), ("submitted", .date 1500)], .add "b" [("msg_id", .text "b"), ("submitted", .date 1800)]])
      [("submitted", .base (.ops [.gt (.date 1500)]))] none = some [] := by decide +kernel

/-- **C99 violated (an update of a record that is not there)** is silently lost, where DictDB raises KeyError. -/
theorem mongo_update_unknown_violated (g : Glob) (new : Rec) (h : ∀ kv ∈ new, kv.1 ≠ "msg_id") : step g [] (.update "a" new) = ([], false) := by
  have : present new "msg_id" = false := by
    unfold present
    rw [List.any_eq_false]
    intro kv hkv
    simpa using h kv hkv
  simp [step, this, updateFirst]

/-- **C99 violated (no keys)**: with an empty list of keys the records of the answer have no field at all, not even `msg_id`; DictDB gives all fields. -/
theorem mongo_no_keys_violated :
    find exGlob [[("msg_id", .text "a"), ("engine_uuid", .text "e")]] [] (some []) = some [[]] := by decide +kernel

/-- **C99 violated (`$exists`)**: a field that is None is there for MongoDB; DictDB says that it is not. -/
theorem mongo_exists_violated :
    find exGlob [[("msg_id", .text "a"), ("completed", .null)]] [("completed", .base (.ops [.exist true]))] none =
      some [[("msg_id", .text "a"), ("completed", .null)]] ∧
    Test.run .null (.exist true) = some false := by decide +kernel

/-- **C99 violated (`$glob` with another operator)**: a query that DictDB answers raises. -/
theorem mongo_glob_and_violated (g : Glob) (docs : Docs) (k : Key) (hk : k ≠ "$glob") (p : String) (t : Test) (ts : List Test) (keys : Option (List Key)) :
    find g docs [(k, .globAnd p t ts)] keys = none := by
  unfold find
  rw [if_pos]
  rw [translate_enc g _ (by simpa using hk)]
  exact ⟨_, List.mem_singleton.2 rfl, rfl⟩

/-- **C99 violated (deleting by a pattern)**: `drop_matching_records` with `$glob` fails, though `find_records` answers the same query. -/
theorem mongo_drop_glob_violated (g : Glob) (docs : Docs) (k : Key) (hk : k ≠ "$glob") (p : String) :
    dropGlob docs [(k, .glob p)] = none ∧ (find g docs [(k, .glob p)] none).isSome = true := by
  obtain ⟨rs, h, _⟩ := mongo_glob_exact g docs k p hk
  exact ⟨by simp [dropGlob], by rw [h]; rfl⟩

/-- **C99 violated (`get_record`)** gives a field that was never stored. -/
theorem mongo_get_extra_violated (docs : Docs) (i : Id) (r : Rec) (h : docOf docs i = some r) :
    ∃ r', getRecord docs i = some r' ∧ r'.get "_id" ≠ .null := ⟨_, by unfold getRecord; rw [h]; rfl, by simp [Rec.get]⟩

/-! ## Non-vacuity -/

def exMOps : List Op := [.add "a" [("msg_id", .text "a"), ("submitted", .date 3000), ("completed", .null)],
  .add "b" [("msg_id", .text "b"), ("submitted", .date 1000), ("completed", .null)], .update "a" [("completed", .date 5000)],
  .add "a" [("msg_id", .text "a")], .drop "c"]

example : (∀ op ∈ exMOps, op.Own) ∧ (∀ op ∈ exMOps, ∀ c, op ≠ .dropMatching c) ∧
    find exGlob (run exGlob exMOps) (base [("completed", .ops [.ne .null])]) (some ["completed"]) =
      some [[("completed", .date 5000), ("msg_id", .text "a"), ("completed", .null)]] ∧
    history (run exGlob exMOps) = [.text "b", .text "a"] := by
  refine ⟨?_, ?_, by decide +kernel, by decide +kernel⟩
  · intro op h
    simp only [exMOps, List.mem_cons, List.not_mem_nil, or_false] at h
    rcases h with rfl | rfl | rfl | rfl | rfl
    · show Rec.get _ _ = _; decide +kernel
    · show Rec.get _ _ = _; decide +kernel
    · right; intro kv hkv; simp at hkv; subst hkv; decide
    · show Rec.get _ _ = _; decide +kernel
    · trivial
  · intro op h c e
    simp only [exMOps, List.mem_cons, List.not_mem_nil, or_false] at h
    rcases h with rfl | rfl | rfl | rfl | rfl <;> cases e

example : FitsM [("msg_id", .text "a"), ("completed", .date 5000)] [("completed", .ops [.ne .null, .lte (.date 6000)]), ("msg_id", .plain (.text "a"))] := by
  intro kc h
  simp only [List.mem_cons, List.not_mem_nil, or_false] at h
  rcases h with rfl | rfl
  · intro t ht
    simp only [List.mem_cons, List.not_mem_nil, or_false] at ht
    rcases ht with rfl | rfl
    · trivial
    · exact ⟨by decide +kernel, by show (6000 : Int) % 1000 = 0; decide⟩
  · trivial

end IPP.DB.Mongo
