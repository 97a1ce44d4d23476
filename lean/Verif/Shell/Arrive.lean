import Verif.Shell.Send
import Verif.Shell.JsonProps
/-!
# C82: a command arrives as it was sent
-/
namespace IPP.Shell

namespace Spec

/-- text of the receiver that does not itself contain the line with the inputs -/
def NoInputs (define : Str) : Prop := ∀ l ∈ lines define, ¬ ∃ r, l = l!"inputs_encoded = \"" ++ r

/-- names of methods -/
def Name (m : Str) : Prop := ∀ c ∈ m, c ≠ 10 ∧ c ≠ 40

end Spec

/-! ## the text that is sent is ASCII -/

theorem hexDigit_ascii (n : Nat) (h : n < 16) : hexDigit n < 128 := by unfold hexDigit; split <;> omega

theorem uesc_ascii (n : Nat) : ∀ c ∈ uesc n, c < 128 := by
  intro c hc
  simp only [uesc, List.mem_cons, List.not_mem_nil, or_false] at hc
  rcases hc with rfl | rfl | rfl | rfl | rfl | rfl
  · decide
  · decide
  all_goals exact hexDigit_ascii _ (by omega)

theorem escChar_ascii (d : Nat) : ∀ c ∈ escChar d, c < 128 := by
  intro c hc
  unfold escChar at hc
  repeat' split at hc
  all_goals first
    | (simp only [List.mem_cons, List.not_mem_nil, or_false] at hc; omega)
    | exact uesc_ascii _ c hc
    | (rcases List.mem_append.1 hc with h | h <;> exact uesc_ascii _ c h)

theorem dumpStr_ascii (s : Str) : ∀ c ∈ dumpStr s, c < 128 := by
  intro c hc
  simp only [dumpStr, List.cons_append, List.mem_cons, List.mem_append, List.mem_flatMap, List.not_mem_nil, or_false] at hc
  rcases hc with rfl | ⟨d, -, h⟩ | rfl
  · decide
  · exact escChar_ascii d c h
  · decide

theorem joinComma_ascii (l : List Str) (h : ∀ x ∈ l, ∀ c ∈ x, c < 128) : ∀ c ∈ joinComma l, c < 128 := by
  induction l with
  | nil => simp [joinComma]
  | cons x l ih =>
    cases l with
    | nil => exact h x (by simp)
    | cons y l =>
      intro c hc
      simp only [joinComma, List.append_assoc, List.cons_append, List.nil_append, List.mem_append, List.mem_cons] at hc
      rcases hc with hc | rfl | rfl | hc
      · exact h x (by simp) c hc
      · decide
      · decide
      · exact ih (fun z hz => h z (List.mem_cons_of_mem _ hz)) c hc

theorem dec_ascii (n : Nat) : ∀ c ∈ dec n, c < 128 := by
  intro c hc
  have := isDigit_dec n c hc
  simp only [isDigit, decide_eq_true_eq] at this
  omega

mutual
theorem dumps_ascii (v : J) : ∀ c ∈ dumps v, c < 128 := by
  cases v with
  | null => simp [dumps]
  | bool b => cases b <;> simp [dumps]
  | num i => cases i with
    | ofNat n => exact dec_ascii n
    | negSucc n =>
      intro c hc
      simp only [dumps, dumpInt, List.mem_cons] at hc
      rcases hc with rfl | hc
      · decide
      · exact dec_ascii _ c hc
  | str s => exact dumpStr_ascii s
  | arr l =>
    have := joinComma_ascii _ (dumpsArr_ascii l)
    intro c hc
    simp only [dumps, List.cons_append, List.nil_append, List.mem_cons, List.mem_append, List.not_mem_nil, or_false] at hc
    rcases hc with rfl | hc | rfl
    · decide
    · exact this c hc
    · decide
  | obj l =>
    have := joinComma_ascii _ (dumpsObj_ascii l)
    intro c hc
    simp only [dumps, List.cons_append, List.nil_append, List.mem_cons, List.mem_append, List.not_mem_nil, or_false] at hc
    rcases hc with rfl | hc | rfl
    · decide
    · exact this c hc
    · decide
theorem dumpsArr_ascii (l : List J) : ∀ x ∈ dumpsArr l, ∀ c ∈ x, c < 128 := by
  cases l with
  | nil => simp [dumpsArr]
  | cons v l =>
    intro x hx
    simp only [dumpsArr, List.mem_cons] at hx
    rcases hx with rfl | hx
    · exact dumps_ascii v
    · exact dumpsArr_ascii l x hx
theorem dumpsObj_ascii (l : List (Str × J)) : ∀ x ∈ dumpsObj l, ∀ c ∈ x, c < 128 := by
  cases l with
  | nil => simp [dumpsObj]
  | cons kv l =>
    obtain ⟨k, v⟩ := kv
    intro x hx
    simp only [dumpsObj, List.mem_cons] at hx
    rcases hx with rfl | hx
    · intro c hc
      simp only [List.append_assoc, List.cons_append, List.nil_append, List.mem_append, List.mem_cons] at hc
      rcases hc with hc | rfl | rfl | hc
      · exact dumpStr_ascii k c hc
      · decide
      · decide
      · exact dumps_ascii v c hc
    · exact dumpsObj_ascii l x hx
end

/-- the encoding of every value exists, is made of base64 characters only, and is inverted on the other side -/
theorem encode_decode (v : J) (hv : Spec.Good v) : ∃ e, encode v = some e ∧ (∀ c ∈ e, IsB64 c) ∧ ((b64decode e).bind decodeAscii).bind loads = some v := by
  have h1 : (dumps v).all (· < 128) = true := by simpa using dumps_ascii v
  refine ⟨b64encode (dumps v), ?_, b64encode_isB64 _, ?_⟩
  · simp [encode, encodeAscii, h1]
  · rw [b64_roundtrip _ (fun b hb => Nat.lt_of_lt_of_le (dumps_ascii v b hb) (by decide))]
    simp [decodeAscii, h1, loads_dumps v hv]

/-! ## the program -/

def t1 : Str := l!"\nimport base64, json\n"
def t2 : Str := l!"\ndef _decode(b64_json):\n    return json.loads(base64.b64decode(b64_json).decode(\"utf8\"))\n"
def t3 : Str := l!"inputs_encoded = \""
def t4 : Str := l!"inputs = _decode(inputs_encoded)\nreceive_parameters=inputs[\"receive_parameters\"]\ncommand_parameters=inputs[\"command_parameters\"]\n\nwith ShellCommandReceive(**receive_parameters) as r:"
def t5 : Str := l!"    r."
def t6 : Str := l!"(**command_parameters)"

set_option maxRecDepth 20000 in
/-- `str.format` puts the three pieces where they belong -/
theorem program_text (define enc m : Str) :
    pyFormat (fun n => if n = l!"define_receive" then some define else if n = l!"inputs_encoded" then some enc else if n = l!"method" then some m else none) (template.length + 1) template =
    some (t1 ++ 10 :: (define ++ 10 :: (t2 ++ 10 :: (t3 ++ (enc ++ 34 :: 10 :: (t4 ++ 10 :: (t5 ++ (m ++ (t6 ++ [10]))))))))) := by
  rfl

theorem lines_append (a b : Str) : lines (a ++ 10 :: b) = lines a ++ lines b := by
  induction a with
  | nil => rfl
  | cons c a ih =>
    simp only [List.cons_append, lines]
    split
    · rw [ih]; rfl
    · rw [ih]
      cases h : lines a with
      | nil => cases a with
        | nil => cases h
        | cons x y =>
          simp only [lines] at h
          split at h
          · cases h
          · split at h <;> cases h
      | cons l ls => rfl

theorem lines_line (a b : Str) (ha : ∀ c ∈ a, c ≠ 10) : lines (a ++ 10 :: b) = a :: lines b := by
  rw [lines_append]
  have : lines a = [a] := by
    induction a with
    | nil => rfl
    | cons c a ih =>
      simp only [lines]
      rw [if_neg (ha c (by simp)), ih (fun x hx => ha x (by simp [hx]))]
  rw [this]; rfl

theorem stripPrefix_append (p r : Str) : stripPrefix p (p ++ r) = some r := by
  induction p with
  | nil => rfl
  | cons c p ih => simp [stripPrefix, ih]

theorem stripPrefix_some {p s r : Str} (h : stripPrefix p s = some r) : s = p ++ r := by
  induction p generalizing s with
  | nil => simp [stripPrefix] at h; exact h
  | cons c p ih =>
    cases s with
    | nil => cases h
    | cons d s =>
      simp only [stripPrefix] at h
      split at h
      · rename_i hcd; subst hcd; rw [ih h]; rfl
      · cases h

theorem findPrefix_skip (p : Str) (a b : List Str) (ha : ∀ l ∈ a, stripPrefix p l = none) : findPrefix p (a ++ b) = findPrefix p b := by
  induction a with
  | nil => rfl
  | cons l a ih =>
    simp only [List.cons_append, findPrefix]
    rw [ha l (by simp)]
    exact ih (fun x hx => ha x (by simp [hx]))

theorem findPrefix_hit (p r : Str) (b : List Str) : findPrefix p ((p ++ r) :: b) = some (r, b) := by simp [findPrefix, stripPrefix_append]

theorem readLiteral_b64 (e rest : Str) (he : ∀ c ∈ e, IsB64 c) : readLiteral (e ++ 34 :: rest) = some e := by
  induction e with
  | nil => rfl
  | cons c e ih =>
    have hc := he c (by simp)
    simp only [List.cons_append, readLiteral]
    rw [if_neg (by unfold IsB64 at hc; omega), if_neg (by unfold IsB64 at hc; omega), ih (fun x hx => he x (by simp [hx]))]
    rfl

/-- **C82 (commands arrive).** Whatever characters the arguments of a command contain — quotes, backslashes, newlines, braces, dollar signs, non-ASCII characters, lone surrogates —, the other side calls the method of that name with exactly these arguments. -/
theorem command_arrives (define : Str) (hd : Spec.NoInputs define) (recv : List (Str × J)) (hr : Spec.Good (.obj recv)) (c : Command) (hm : Spec.Name c.method) (ha : Spec.Good (.obj c.args)) :
    (program define recv c).bind execute = some c := by
  obtain ⟨e, h1, h2, h3⟩ := encode_decode (.obj [(l!"receive_parameters", .obj recv), (l!"command_parameters", .obj c.args)]) (by
    simp only [Spec.Good, Spec.GoodObj, and_true]
    refine ⟨⟨by decide, ?_⟩, by simpa [Spec.Good] using hr, ⟨by decide, ?_⟩, by simpa [Spec.Good] using ha⟩
    · rintro u a b v h ⟨hh, -⟩
      have h5 : a ∈ l!"receive_parameters" := by rw [h]; simp
      have h6 : ∀ x ∈ l!"receive_parameters", x < 128 := by decide
      have := h6 a h5
      unfold Spec.High at hh; omega
    · rintro u a b v h ⟨hh, -⟩
      have h5 : a ∈ l!"command_parameters" := by rw [h]; simp
      have h6 : ∀ x ∈ l!"command_parameters", x < 128 := by decide
      have := h6 a h5
      unfold Spec.High at hh; omega)
  unfold program
  rw [h1]
  simp only [Option.bind_eq_bind, Option.bind_some]
  rw [program_text]
  simp only [Option.bind_some]
  have hl : lines (t1 ++ 10 :: (define ++ 10 :: (t2 ++ 10 :: (t3 ++ (e ++ 34 :: 10 :: (t4 ++ 10 :: (t5 ++ (c.method ++ (t6 ++ [10])))))))))
      = lines t1 ++ (lines define ++ (lines t2 ++ ((t3 ++ (e ++ [34])) :: (lines t4 ++ ((t5 ++ (c.method ++ t6)) :: [[]]))))) := by
    have e1 : ∀ x, t3 ++ (e ++ 34 :: 10 :: x) = (t3 ++ (e ++ [34])) ++ 10 :: x := by intro x; simp only [List.append_assoc, List.cons_append, List.nil_append]
    have e2 : t5 ++ (c.method ++ (t6 ++ [10])) = (t5 ++ (c.method ++ t6)) ++ 10 :: [] := by simp only [List.append_assoc]
    have h3 : ∀ x ∈ t3, x ≠ 10 := by decide
    have h5 : ∀ x ∈ t5, x ≠ 10 := by decide
    have h6 : ∀ x ∈ t6, x ≠ 10 := by decide
    rw [lines_append, lines_append, lines_append, e1, lines_line _ _ (by
      intro x hx
      simp only [List.mem_append, List.mem_singleton] at hx
      rcases hx with hx | hx | hx
      · exact h3 x hx
      · have := h2 x hx; unfold IsB64 at this; omega
      · omega), lines_append, e2, lines_line _ _ (by
      intro x hx
      simp only [List.mem_append] at hx
      rcases hx with hx | hx | hx
      · exact h5 x hx
      · exact (hm x hx).1
      · exact h6 x hx)]
    rfl
  unfold execute
  rw [hl]
  have f1 : findPrefix l!"inputs_encoded = \"" (lines t1 ++ (lines define ++ (lines t2 ++ ((t3 ++ (e ++ [34])) :: (lines t4 ++ ((t5 ++ (c.method ++ t6)) :: [[]]))))))
      = some (e ++ [34], lines t4 ++ ((t5 ++ (c.method ++ t6)) :: [[]])) := by
    rw [findPrefix_skip _ _ _ (by decide), findPrefix_skip _ _ _ (by
      intro l hl
      cases h : stripPrefix l!"inputs_encoded = \"" l with
      | none => rfl
      | some r => exact absurd ⟨r, stripPrefix_some h⟩ (hd l hl)), findPrefix_skip _ _ _ (by decide)]
    exact findPrefix_hit _ _ _
  have f2 : findPrefix l!"    r." (lines t4 ++ ((t5 ++ (c.method ++ t6)) :: [[]])) = some (c.method ++ t6, [[]]) := by
    rw [findPrefix_skip _ _ _ (by decide)]
    exact findPrefix_hit _ _ _
  have g1 : J.get l!"receive_parameters" (.obj [(l!"receive_parameters", .obj recv), (l!"command_parameters", .obj c.args)]) = some (.obj recv) := rfl
  have g2 : J.get l!"command_parameters" (.obj [(l!"receive_parameters", .obj recv), (l!"command_parameters", .obj c.args)]) = some (.obj c.args) := rfl
  have e3 : (c.method ++ t6).takeWhile (· != 40) = c.method := by
    rw [List.takeWhile_append_of_pos (by intro x hx; simpa using (hm x hx).2)]
    simp [t6]
  rw [f1]
  simp only [Option.bind_eq_bind, Option.bind_some]
  rw [readLiteral_b64 e [] h2]
  simp only [Option.bind_some]
  rw [h3]
  simp only [Option.bind_some]
  rw [g1, g2]
  simp only [Option.bind_some, J.members]
  rw [f2]
  simp only [Option.bind_some, Option.pure_def]
  rw [e3]

/-- the path of a command with one parameter -/
def onePath (c : Command) : Option (Str × Str × Str) :=
  match c.args with
  | [(k, .str p)] => some (c.method, k, p)
  | _ => none

/-- **C82, violation.** A file name that contains a high surrogate followed by a low one (which Python allows) arrives as a different string. -/
theorem surrogates_merged_violated : ((program receiverImport [] ⟨l!"cmd_remove", [(l!"path", .str [0xD83D, 0xDE00])]⟩).bind execute).bind onePath = some (l!"cmd_remove", l!"path", [0x1F600]) := by
  decide +kernel

/-- the import is such text -/
theorem noInputs_import : Spec.NoInputs receiverImport := by
  intro l hl ⟨r, hr⟩
  have h1 : ∀ l ∈ lines receiverImport, stripPrefix l!"inputs_encoded = \"" l = none := by decide
  have := h1 l hl
  rw [hr, stripPrefix_append] at this
  cases this

end IPP.Shell
