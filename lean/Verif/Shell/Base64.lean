/-!
# Model of `base64.b64encode`/`b64decode` as used by cluster/shellcmd.py:59-65 and its receiving template (shellcmd.py:31-44)

Bytes and characters are natural numbers (code points). The decoder is CPython's `binascii.a2b_base64` in its default (non-strict) mode.
-/
namespace IPP.Shell

/-- the base64 alphabet — part of `base64.b64encode` as called by shellcmd.py:59-65 -/
def enc6 (v : Nat) : Nat := if v < 26 then 65 + v else if v < 52 then 71 + v else if v < 62 then v - 4 else if v = 62 then 43 else 47

/-- its inverse, `none` for other characters — part of `base64.b64decode` as called by the template, shellcmd.py:28-45 -/
def dec6 (c : Nat) : Option Nat :=
  if 65 ≤ c ∧ c ≤ 90 then some (c - 65) else if 97 ≤ c ∧ c ≤ 122 then some (c - 71) else if 48 ≤ c ∧ c ≤ 57 then some (c + 4)
  else if c = 43 then some 62 else if c = 47 then some 63 else none

/-- `base64.b64encode` — as called by shellcmd.py:59-65 -/
def b64encode : List Nat → List Nat
  | a :: b :: c :: rest => enc6 (a / 4) :: enc6 (a % 4 * 16 + b / 16) :: enc6 (b % 16 * 4 + c / 64) :: enc6 (c % 64) :: b64encode rest
  | [a, b] => [enc6 (a / 4), enc6 (a % 4 * 16 + b / 16), enc6 (b % 16 * 4), 61]
  | [a] => [enc6 (a / 4), enc6 (a % 4 * 16), 61, 61]
  | [] => []

/-- the loop of `binascii.a2b_base64`: `q` is the position in the quad, `left` the bits left over, `pads` the number of `=` seen in this quad; `none` is `binascii.Error` — `binascii.a2b_base64`, not strict, as called by the template, shellcmd.py:28-45 -/
def a2b (q left pads : Nat) : List Nat → Option (List Nat)
  | [] => if q = 0 then some [] else none
  | c :: cs =>
    if c = 61 then
      if 2 ≤ q ∧ 4 ≤ q + (pads + 1) then some [] -- a pad sequence ends the data
      else a2b q left (if 2 ≤ q then pads + 1 else pads) cs
    else match dec6 c with
      | none => a2b q left pads cs
      | some v =>
        if q = 0 then a2b 1 v 0 cs
        else if q = 1 then (a2b 2 (v % 16) 0 cs).map (((left * 4 + v / 16) % 256) :: ·)
        else if q = 2 then (a2b 3 (v % 4) 0 cs).map (((left * 16 + v / 4) % 256) :: ·)
        else (a2b 0 0 0 cs).map (((left * 64 + v) % 256) :: ·)

/-- `base64.b64decode` — as called by the template, shellcmd.py:28-45 -/
def b64decode (s : List Nat) : Option (List Nat) := a2b 0 0 0 s

theorem dec6_enc6 : ∀ v < 64, dec6 (enc6 v) = some v := by decide
theorem enc6_ne_pad : ∀ v < 64, enc6 v ≠ 61 := by decide

/-- characters of base64 data -/
def IsB64 (c : Nat) : Prop := (65 ≤ c ∧ c ≤ 90) ∨ (97 ≤ c ∧ c ≤ 122) ∨ (48 ≤ c ∧ c ≤ 57) ∨ c = 43 ∨ c = 47 ∨ c = 61

theorem enc6_isB64 (v : Nat) : IsB64 (enc6 v) := by
  unfold enc6 IsB64
  split
  · omega
  · split
    · omega
    · split
      · omega
      · split <;> simp

theorem b64encode_isB64 : ∀ (bs : List Nat), ∀ c ∈ b64encode bs, IsB64 c
  | a :: b :: d :: rest => by
    intro c hc
    simp only [b64encode, List.mem_cons] at hc
    rcases hc with rfl | rfl | rfl | rfl | hc
    · exact enc6_isB64 _
    · exact enc6_isB64 _
    · exact enc6_isB64 _
    · exact enc6_isB64 _
    · exact b64encode_isB64 rest c hc
  | [a, b] => by
    intro c hc
    simp only [b64encode, List.mem_cons, List.not_mem_nil, or_false] at hc
    rcases hc with rfl | rfl | rfl | rfl
    · exact enc6_isB64 _
    · exact enc6_isB64 _
    · exact enc6_isB64 _
    · simp [IsB64]
  | [a] => by
    intro c hc
    simp only [b64encode, List.mem_cons, List.not_mem_nil, or_false] at hc
    rcases hc with rfl | rfl | rfl | rfl
    · exact enc6_isB64 _
    · exact enc6_isB64 _
    · simp [IsB64]
    · simp [IsB64]
  | [] => by simp [b64encode]

theorem a2b_enc (q left pads v : Nat) (hv : v < 64) (cs : List Nat) : a2b q left pads (enc6 v :: cs) =
    if q = 0 then a2b 1 v 0 cs
    else if q = 1 then (a2b 2 (v % 16) 0 cs).map (((left * 4 + v / 16) % 256) :: ·)
    else if q = 2 then (a2b 3 (v % 4) 0 cs).map (((left * 16 + v / 4) % 256) :: ·)
    else (a2b 0 0 0 cs).map (((left * 64 + v) % 256) :: ·) := by
  rw [a2b, if_neg (enc6_ne_pad v hv), dec6_enc6 v hv]

/-- base64 decoding inverts encoding, for all bytes -/
theorem b64_roundtrip : ∀ (bs : List Nat), (∀ b ∈ bs, b < 256) → b64decode (b64encode bs) = some bs
  | a :: b :: c :: rest, h => by
    have ha := h a (by simp)
    have hb := h b (by simp)
    have hc := h c (by simp)
    have ih := b64_roundtrip rest (fun x hx => h x (by simp [hx]))
    unfold b64decode at ih ⊢
    simp only [b64encode]
    rw [a2b_enc _ _ _ _ (by omega), if_pos rfl, a2b_enc _ _ _ _ (by omega), if_neg (by decide), if_pos rfl,
      a2b_enc _ _ _ _ (by omega), if_neg (by decide), if_neg (by decide), if_pos rfl,
      a2b_enc _ _ _ _ (by omega), if_neg (by decide), if_neg (by decide), if_neg (by decide), ih]
    simp only [Option.map_some, Option.some.injEq, List.cons.injEq, and_true]
    refine ⟨by omega, by omega, by omega⟩
  | [a, b], h => by
    have ha := h a (by simp)
    have hb := h b (by simp)
    unfold b64decode
    simp only [b64encode]
    rw [a2b_enc _ _ _ _ (by omega), if_pos rfl, a2b_enc _ _ _ _ (by omega), if_neg (by decide), if_pos rfl,
      a2b_enc _ _ _ _ (by omega), if_neg (by decide), if_neg (by decide), if_pos rfl]
    simp [a2b]
    refine ⟨by omega, by omega⟩
  | [a], h => by
    have ha := h a (by simp)
    unfold b64decode
    simp only [b64encode]
    rw [a2b_enc _ _ _ _ (by omega), if_pos rfl, a2b_enc _ _ _ _ (by omega), if_neg (by decide), if_pos rfl]
    simp [a2b]
    omega
  | [], _ => rfl

end IPP.Shell
