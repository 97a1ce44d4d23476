import Verif.Apps.LogWatcher

/-!
# Forwarded log messages are shown with level and topic (C105)
-/
namespace IPP.Apps.LogWatch

/-! ## Texts with dots -/

theorem join_cons (w : Text) (l : List Text) (h : l ≠ []) :
    joinDots (w :: l) = w ++ '.' :: joinDots l := by
  cases l with
  | nil => exact absurd rfl h
  | cons a l => rfl

theorem split_word (w : Text) (h : '.' ∉ w) : splitDots w = [w] := by
  induction w with
  | nil => rfl
  | cons c w ih =>
    have hc : c ≠ '.' := fun e => h (by simp [e])
    have hw : '.' ∉ w := fun e => h (by simp [e])
    rw [splitDots, if_neg hc, ih hw]

theorem split_first (w t : Text) (h : '.' ∉ w) : splitDots (w ++ '.' :: t) = w :: splitDots t := by
  induction w with
  | nil => simp [splitDots]
  | cons c w ih =>
    have hc : c ≠ '.' := fun e => h (by simp [e])
    have hw : '.' ∉ w := fun e => h (by simp [e])
    rw [List.cons_append, splitDots, if_neg hc, ih hw]

theorem split_join (l : List Text) (hn : l ≠ []) (h : ∀ w ∈ l, '.' ∉ w) :
    splitDots (joinDots l) = l := by
  induction l with
  | nil => exact absurd rfl hn
  | cons w l ih =>
    by_cases hl : l = []
    · subst hl
      exact split_word w (h w (by simp))
    · rw [join_cons w l hl, split_first w _ (h w (by simp)), ih hl (fun x hx => h x (by simp [hx]))]

theorem join_append (a b : List Text) (ha : a ≠ []) (hb : b ≠ []) :
    joinDots (a ++ b) = joinDots a ++ '.' :: joinDots b := by
  induction a with
  | nil => exact absurd rfl ha
  | cons w a ih =>
    rw [List.cons_append, join_cons w (a ++ b) (by simp [hb])]
    by_cases hl : a = []
    · subst hl
      rfl
    · rw [ih hl, join_cons w a hl]
      simp

theorem rsplit_last (a w : Text) (h : '.' ∉ w) : rsplitDot (a ++ '.' :: w) = (a, w) := by
  have h1 : ∀ (v b : Text), '.' ∉ v →
      (v ++ '.' :: b).dropWhile (· ≠ '.') = '.' :: b ∧ (v ++ '.' :: b).takeWhile (· ≠ '.') = v := by
    intro v b hv
    induction v with
    | nil => simp
    | cons c v ih =>
      have hc : c ≠ '.' := fun e => hv (by simp [e])
      have hw : '.' ∉ v := fun e => hv (by simp [e])
      simp only [List.cons_append, List.dropWhile_cons, List.takeWhile_cons, hc, ne_eq,
        not_false_eq_true, decide_true, if_true]
      exact ⟨(ih hw).1, by rw [(ih hw).2]⟩
  unfold rsplitDot
  have e : (a ++ '.' :: w).reverse = w.reverse ++ '.' :: a.reverse := by simp
  rw [e]
  obtain ⟨h2, h3⟩ := h1 w.reverse a.reverse (by simpa using h)
  rw [h2, h3]
  simp

/-! ## Levels -/

theorem firstAttr_none (logging : Text → Option Attr) (l : List Text)
    (h : ∀ w ∈ l, logging w = none) : firstAttr logging l = none := by
  induction l with
  | nil => rfl
  | cons w l ih =>
    rw [firstAttr, h w (by simp)]
    simp only
    rw [ih (fun x hx => h x (by simp [hx]))]
    rfl

theorem firstAttr_at (logging : Text → Option Attr) (l m : List Text) (w : Text) (a : Attr)
    (h : ∀ x ∈ l, logging x = none) (hw : logging w = some a) :
    firstAttr logging (l ++ w :: m) = some (l.length, a) := by
  induction l with
  | nil => simp [firstAttr, hw]
  | cons x l ih =>
    rw [List.cons_append, firstAttr, h x (by simp)]
    simp only
    rw [ih (fun y hy => h y (by simp [hy]))]
    rfl

/-! ## What the watcher makes of decoded messages -/

/-- The parts of the topic of a root. -/
def Root.parts : Root → List Text
  | .controller => ["controller".toList]
  | .engine none => ["engine".toList]
  | .engine (some n) => ["engine".toList, Nat.toDigits 10 n]

theorem digits_no_dot (n : Nat) : '.' ∉ Nat.toDigits 10 n := by
  intro h
  have := Nat.isDigit_of_mem_toDigits (b := 10) (n := n) (by omega) (by omega) h
  exact absurd this (by decide)

theorem parts_ok (r : Root) : r.parts ≠ [] ∧ (∀ w ∈ r.parts, '.' ∉ w) ∧
    r.topic = joinDots r.parts := by
  cases r with
  | controller => exact ⟨by simp [Root.parts], by simp only [Root.parts]; decide +kernel, rfl⟩
  | engine id =>
    cases id with
    | none => exact ⟨by simp [Root.parts], by simp only [Root.parts]; decide +kernel, rfl⟩
    | some n =>
      refine ⟨by simp [Root.parts], ?_, ?_⟩
      · intro w hw
        simp only [Root.parts, List.mem_cons, List.not_mem_nil, or_false] at hw
        rcases hw with rfl | rfl
        · decide +kernel
        · exact digits_no_dot n
      · show "engine.".toList ++ Nat.toDigits 10 n =
          "engine".toList ++ '.' :: joinDots [Nat.toDigits 10 n]
        have : "engine.".toList = "engine".toList ++ ['.'] := by decide +kernel
        rw [this]
        simp [joinDots]

/-- The names of roots are no attributes of `logging`, and this is the name of a level. -/
def Plain (logging : Text → Option Attr) (r : Root) (levelname : Text) (level : Int) : Prop :=
  (∀ w ∈ r.parts, logging w = none) ∧ logging levelname = some (.level level) ∧ '.' ∉ levelname

theorem log_of_topic (logging : Text → Option Attr) (a : List Text) (w msg : Text)
    (ha : a ≠ []) (hd : ∀ x ∈ a, '.' ∉ x) (hw : '.' ∉ w) :
    logMessage logging [.str (joinDots (a ++ [w])), .str (msg ++ ['\n'])] =
      match firstAttr logging a with
      | none => .ok (.logged 20 (joinDots a) msg)
      | some (i, .level n) => .ok (.logged n (joinDots (a.eraseIdx i)) msg)
      | some (_, .other) => .error .typeError := by
  have hj : joinDots (a ++ [w]) = joinDots a ++ '.' :: w := join_append a [w] ha (by simp)
  unfold logMessage
  rw [hj]
  simp only [hasDot]
  have hc : (joinDots a ++ '.' :: w).contains '.' = true := by simp
  rw [hc]
  simp only [rsplit_last _ w hw]
  rw [if_neg (by simp)]
  unfold extractLevel
  rw [split_join a ha hd]
  cases hf : firstAttr logging a with
  | none => simp
  | some p =>
    obtain ⟨i, a'⟩ := p
    cases a' with
    | level n => simp
    | other => simp

/-- **With a subtopic** (without dots), a decoded message is shown at its level, under the name of
its sender; the subtopic is not shown. -/
theorem shown_subtopic_partial (logging : Text → Option Attr) (r : Root) (levelname sub msg : Text)
    (level : Int) (h : Plain logging r levelname level) (hs : sub ≠ []) (hd : '.' ∉ sub) :
    logMessage logging ((emit r levelname sub msg).map decode) =
      .ok (.logged level r.topic msg) := by
  obtain ⟨h1, h2, h3⟩ := h
  obtain ⟨p1, p2, p3⟩ := parts_ok r
  unfold emit
  rw [if_neg hs]
  have ht : joinDots (r.topic :: levelname :: [sub]) = joinDots ((r.parts ++ [levelname]) ++ [sub]) := by
    rw [join_append (r.parts ++ [levelname]) [sub] (by simp) (by simp),
      join_append r.parts [levelname] p1 (by simp), ← p3]
    simp [joinDots]
  simp only [List.map_cons, List.map_nil, decode]
  rw [ht, log_of_topic logging _ sub msg (by simp) _ hd]
  · rw [firstAttr_at logging r.parts [] levelname _ h1 h2]
    simp only
    rw [List.eraseIdx_append_of_length_le (Nat.le_refl _)]
    simp [p3]
  · intro x hx
    simp only [List.mem_append, List.mem_singleton] at hx
    rcases hx with hx | rfl
    · exact p2 x hx
    · exact h3

/-- **Without a subtopic every message is shown as INFO**, whatever its level: the last part of
the topic, which is the level, is cut off before the level is looked for. -/
theorem level_lost_violated (logging : Text → Option Attr) (r : Root) (levelname msg : Text)
    (level : Int) (h : Plain logging r levelname level) :
    logMessage logging ((emit r levelname [] msg).map decode) = .ok (.logged 20 r.topic msg) := by
  obtain ⟨h1, h2, h3⟩ := h
  obtain ⟨p1, p2, p3⟩ := parts_ok r
  unfold emit
  rw [if_pos rfl]
  have ht : joinDots (r.topic :: levelname :: []) = joinDots (r.parts ++ [levelname]) := by
    rw [join_append r.parts [levelname] p1 (by simp), ← p3]
    simp [joinDots]
  simp only [List.map_cons, List.map_nil, decode]
  rw [ht, log_of_topic logging _ levelname msg p1 p2 h3, firstAttr_none logging _ h1, p3]

/-! ## As it is: bytes -/

/-- **The watcher cannot be made**: the first thing it does is to pass a string where bytes are
needed. So no message is ever shown. -/
theorem watcher_fails_violated (logging : Text → Option Attr) (topics : List Text) (raw : List Py) :
    watch logging topics raw = .error .typeError := rfl

/-- **Even a watcher that listens shows nothing**: every message raises. -/
theorem message_fails_violated (logging : Text → Option Attr) (r : Root)
    (levelname sub msg : Text) :
    logMessage logging (emit r levelname sub msg) = .error .typeError := by
  unfold emit logMessage
  rfl

/-- **An engine with a `log_url` does not start** with a pyzmq whose handler sets its root
topic. -/
theorem engine_handler_fails_violated (id : Option Nat) :
    makeHandler true (.engine id) = .error .attributeError ∧
    makeHandler true .controller = .ok () := ⟨rfl, rfl⟩

/-- `logging` with its levels. -/
def stdLogging (t : Text) : Option Attr :=
  if t = "DEBUG".toList then some (.level 10)
  else if t = "ERROR".toList then some (.level 40)
  else if t = "Handler".toList then some .other
  else none

theorem plain_std : Plain stdLogging (.engine (some 12)) "ERROR".toList 40 := by
  refine ⟨?_, by decide +kernel, by decide +kernel⟩
  intro w hw
  simp only [Root.parts, List.mem_cons, List.not_mem_nil, or_false] at hw
  rcases hw with rfl | rfl <;> decide +kernel

example :
    logMessage stdLogging ((emit (.engine (some 12)) "ERROR".toList "sub".toList "boom".toList).map
      decode) = .ok (.logged 40 "engine.12".toList "boom".toList) := by
  rw [shown_subtopic_partial stdLogging _ _ _ _ 40 plain_std (by decide +kernel) (by decide +kernel)]
  have : Root.topic (.engine (some 12)) = "engine.12".toList := by decide +kernel
  rw [this]

example :
    logMessage stdLogging ((emit (.engine (some 12)) "ERROR".toList [] "boom".toList).map
      decode) = .ok (.logged 20 (Root.topic (.engine (some 12))) "boom".toList) :=
  level_lost_violated stdLogging _ _ _ 40 plain_std

end IPP.Apps.LogWatch
