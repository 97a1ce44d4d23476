import Verif.Shell.Output
/-!
# C82: recognising the remote shell (`initialize`), and examples
-/
namespace IPP.Shell

namespace Spec

/-- values that the shells substitute: not empty, without `;`, `=`, quotes, backslashes and white space, not beginning with `$`, `%` or `:` -/
def Plain (s : Str) : Prop := (∃ c t, s = c :: t ∧ c ≠ 36 ∧ c ≠ 37 ∧ c ≠ 58) ∧ ∀ c ∈ s, c ≠ 59 ∧ c ≠ 61 ∧ c ≠ 34 ∧ c ≠ 92 ∧ isWs c = false

end Spec

theorem strip_id (p : Nat → Bool) (s : Str) (h1 : ∀ c t, s = c :: t → p c = false) (h2 : ∀ c t, s = t ++ [c] → p c = false) : strip p s = s := by
  have a : lstrip p s = s := by
    cases s with
    | nil => rfl
    | cons c t => simp [lstrip, h1 c t rfl]
  unfold strip
  rw [a]
  have b : lstrip p s.reverse = s.reverse := by
    cases h : s.reverse with
    | nil => rfl
    | cons c t =>
      have : s = t.reverse ++ [c] := by rw [← List.reverse_reverse s, h]; simp
      simp [lstrip, h2 c _ this]
  rw [b, List.reverse_reverse]

theorem strip_last (p : Nat → Bool) (s : Str) (x : Nat) (hx : p x = true) (hs : s ≠ []) (h1 : ∀ c t, s = c :: t → p c = false) (h2 : ∀ c t, s = t ++ [c] → p c = false) : strip p (s ++ [x]) = s := by
  have h := strip_id p s h1 h2
  unfold strip at h ⊢
  have a : lstrip p (s ++ [x]) = s ++ [x] := by
    cases s with
    | nil => exact absurd rfl hs
    | cons c t => simp [lstrip, h1 c t rfl]
  have a' : lstrip p s = s := by
    cases s with
    | nil => exact absurd rfl hs
    | cons c t => simp [lstrip, h1 c t rfl]
  rw [a'] at h
  rw [a, List.reverse_append]
  simpa [lstrip, hx] using h

theorem splitOn_append (sep : Nat) (a b : Str) : splitOn sep (a ++ sep :: b) = splitOn sep a ++ splitOn sep b := by
  induction a with
  | nil => simp [splitOn]
  | cons c a ih =>
    simp only [List.cons_append, splitOn]
    split
    · rw [ih]; rfl
    · rw [ih]
      cases h : splitOn sep a with
      | nil => cases a with
        | nil => cases h
        | cons x y =>
          simp only [splitOn] at h
          split at h
          · cases h
          · split at h <;> cases h
      | cons l ls => rfl

theorem splitOn_none (sep : Nat) (a : Str) (h : ∀ c ∈ a, c ≠ sep) : splitOn sep a = [a] := by
  induction a with
  | nil => rfl
  | cons c a ih =>
    simp only [splitOn]
    rw [if_neg (h c (by simp)), ih (fun x hx => h x (by simp [hx]))]

theorem occurs_eq {x : Nat} {key v : Str} (hk : ∀ c ∈ key, c ≠ 61) (hv : ∀ c ∈ v, c ≠ 61) (h : contains [61, x] (key ++ 61 :: v) = true) : ∃ t, v = x :: t := by
  rw [contains_iff _ _ (by simp)] at h
  obtain ⟨a, b, h⟩ := h
  rw [List.append_assoc] at h
  rcases List.append_eq_append_iff.1 h with ⟨u, h1, h2⟩ | ⟨u, h1, h2⟩
  · cases u with
    | nil => simp only [List.nil_append, List.cons_append, List.cons.injEq, true_and] at h2; exact ⟨b, h2⟩
    | cons d u =>
      simp only [List.cons_append, List.nil_append, List.cons.injEq] at h2
      have : (61 : Nat) ∈ v := by rw [h2.2]; simp
      exact absurd rfl (hv 61 this)
  · cases u with
    | nil => simp only [List.nil_append, List.cons_append, List.cons.injEq, true_and] at h2; exact ⟨b, h2.symm⟩
    | cons d u =>
      simp only [List.cons_append, List.nil_append, List.cons.injEq] at h2
      have : (61 : Nat) ∈ key := by rw [h1, ← h2.1]; simp
      exact absurd rfl (hk 61 this)

theorem valid_plain (key v : Str) (hk : ∀ c ∈ key, c ≠ 61) (hv : Spec.Plain v) : validEntry (key ++ 61 :: v) = true := by
  obtain ⟨⟨c, t, rfl, h1, h2, h3⟩, hall⟩ := hv
  have hno : ∀ x, x ≠ c → contains [61, x] (key ++ 61 :: (c :: t)) = false := by
    intro x hx
    cases h : contains [61, x] (key ++ 61 :: (c :: t)) with
    | false => rfl
    | true =>
      obtain ⟨t', ht⟩ := occurs_eq hk (fun d hd => (hall d hd).2.1) h
      exact absurd (List.cons.inj ht).1.symm hx
  unfold validEntry
  rw [hno 36 (Ne.symm h1), hno 37 (Ne.symm h2), hno 58 (Ne.symm h3)]
  have h4 : ¬ (c :: t).getLast? = some 61 := by
    intro h4
    exact (hall 61 (List.mem_of_getLast? h4)).2.1 rfl
  simp [h4]

theorem classify_plain (i : Info) (key v : Str) (hk : ∀ c ∈ key, c ≠ 61) (hv : Spec.Plain v) : splitOn 61 (key ++ 61 :: v) = [key, v] := by
  rw [splitOn_append, splitOn_none 61 key hk, splitOn_none 61 v (fun c hc => (hv.2 c hc).2.1)]
  rfl

theorem plain_last {v t : Str} {c : Nat} (hv : Spec.Plain v) {a : Str} (h : a ++ v = t ++ [c]) : c ∈ v := by
  obtain ⟨⟨d, s, rfl, -⟩, -⟩ := hv
  have : (a ++ d :: s).getLast? = some c := by rw [h]; simp
  rw [List.getLast?_append] at this
  have h2 : (d :: s).getLast? = some c := by simpa using this
  exact List.mem_of_getLast? h2

def head1 : Str := l!"OS-WIN-CMD=%OS%"
def head2 : Str := l!"OS-WIN-PW=:OS"

/-- **C82 (shell of a Unix host).** The answer of bash or zsh is recognised: not Windows, with the given system and shell. -/
theorem unix_recognised (lw : Bool) (os sh : Str) (ho : Spec.Plain os) (hs : Spec.Plain sh) :
    classify lw (l!"OS-WIN-CMD=%OS%;OS-WIN-PW=:OS;OS-LINUX=" ++ os ++ (l!";SHELL=" ++ sh) ++ l!"\n") = some { system := some os, shell := some sh, win := false } := by
  have hbody : l!"OS-WIN-CMD=%OS%;OS-WIN-PW=:OS;OS-LINUX=" ++ os ++ (l!";SHELL=" ++ sh) ++ l!"\n" = (head1 ++ 59 :: (head2 ++ 59 :: ((l!"OS-LINUX" ++ 61 :: os) ++ 59 :: (l!"SHELL" ++ 61 :: sh)))) ++ [10] := by
    simp [head1, head2]
  have hlast : ∀ c t, head1 ++ 59 :: (head2 ++ 59 :: ((l!"OS-LINUX" ++ 61 :: os) ++ 59 :: (l!"SHELL" ++ 61 :: sh))) = t ++ [c] → c ∈ sh := by
    intro c t h
    refine plain_last (t := t) (a := head1 ++ 59 :: (head2 ++ 59 :: ((l!"OS-LINUX" ++ 61 :: os) ++ 59 :: (l!"SHELL" ++ [61])))) hs ?_
    rw [← h]; simp
  have hfirst : ∀ c t, head1 ++ 59 :: (head2 ++ 59 :: ((l!"OS-LINUX" ++ 61 :: os) ++ 59 :: (l!"SHELL" ++ 61 :: sh))) = c :: t → c = 79 := by
    intro c t h
    exact (List.cons.inj h).1.symm
  unfold classify
  rw [hbody, strip_last isWs _ 10 rfl (by simp [head1]) (by intro c t h; rw [hfirst c t h]; rfl) (by intro c t h; exact (hs.2 c (hlast c t h)).2.2.2.2),
    strip_id (fun c => c == 92 || c == 34) _ (by intro c t h; rw [hfirst c t h]; rfl) (by intro c t h; have := hs.2 c (hlast c t h); simp [this.2.2.1, this.2.2.2.1]),
    strip_id (fun c => c == 34) _ (by intro c t h; rw [hfirst c t h]; rfl) (by intro c t h; have := hs.2 c (hlast c t h); simp [this.2.2.1]),
    splitOn_append, splitOn_append, splitOn_append, splitOn_none 59 head1 (by decide), splitOn_none 59 head2 (by decide),
    splitOn_none 59 (l!"OS-LINUX" ++ 61 :: os) (by
      intro c hc
      rcases List.mem_append.1 hc with h | h
      · have h6 : ∀ x ∈ l!"OS-LINUX", x ≠ 59 := by decide
        exact h6 c h
      · rcases List.mem_cons.1 h with rfl | h
        · decide
        · exact (ho.2 c h).1),
    splitOn_none 59 (l!"SHELL" ++ 61 :: sh) (by
      intro c hc
      rcases List.mem_append.1 hc with h | h
      · have h6 : ∀ x ∈ l!"SHELL", x ≠ 59 := by decide
        exact h6 c h
      · rcases List.mem_cons.1 h with rfl | h
        · decide
        · exact (hs.2 c h).1)]
  have v1 : validEntry head1 = false := by decide
  have v2 : validEntry head2 = false := by decide
  have v3 := valid_plain l!"OS-LINUX" os (by decide) ho
  have v4 := valid_plain l!"SHELL" sh (by decide) hs
  have c3 := classify_plain { win := lw } l!"OS-LINUX" os (by decide) ho
  have c4 := classify_plain { win := lw } l!"SHELL" sh (by decide) hs
  have hany : ([head1] ++ ([head2] ++ ([l!"OS-LINUX" ++ 61 :: os] ++ [l!"SHELL" ++ 61 :: sh]))).any (·.isEmpty) = false := rfl
  simp only
  rw [if_neg (by rw [hany]; decide)]
  simp only [List.cons_append, List.nil_append, List.filter_cons, List.filter_nil, v1, v2, Bool.false_eq_true, if_false]
  simp only [List.cons_append, List.nil_append] at v3 v4 c3 c4
  rw [v3, v4]
  simp only [if_true, List.foldlM_cons, List.foldlM_nil, classifyEntry]
  rw [c3]
  simp only [Option.bind_eq_bind]
  rw [if_neg (by decide), if_neg (by decide), if_pos trivial]
  simp only [Option.bind_some]
  rw [c4]
  simp only
  rw [if_neg (by decide), if_neg (by decide), if_neg (by decide), if_pos trivial]
  rfl

/-- **C82, violation.** A Unix shell without `OSTYPE` (dash, fish): the host is taken to be of the kind of the sender's own machine, Windows if that is a Windows machine. -/
theorem no_ostype_violated (lw : Bool) : classify lw l!"OS-WIN-CMD=%OS%;OS-WIN-PW=:OS;OS-LINUX=;SHELL=/bin/sh\n" = some { shell := some l!"/bin/sh", win := lw } := by
  cases lw <;> decide +kernel

/-- The answers of the Windows shells are recognised. -/
theorem windows_recognised : classify false l!"OS-WIN-CMD=%OS%;OS-WIN-PW=Windows_NT;OS-LINUX=;SHELL=\n" = some { system := some l!"Windows_NT", shell := some l!"powershell.exe", win := true, backslash := true } ∧
    classify false l!"\"OS-WIN-CMD=Windows_NT;OS-WIN-PW=$env:OS;OS-LINUX=$OSTYPE;SHELL=$SHELL\"\n" = some { system := some l!"Windows_NT", shell := some l!"cmd.exe", win := true, backslash := true, joinParams := false } := by
  constructor <;> decide +kernel

/-- **C82, violation.** A message of the day that contains a semicolon makes recognising fail. -/
theorem message_of_the_day_violated : classify false l!"Welcome; enjoy\nOS-WIN-CMD=%OS%;OS-WIN-PW=:OS;OS-LINUX=linux-gnu;SHELL=/bin/bash\n" = none := by decide +kernel

/-! ## the hypotheses are met -/

example : Spec.Plain l!"linux-gnu" := ⟨⟨_, _, rfl, by decide⟩, by decide⟩
example : Spec.Plain l!"/bin/bash" := ⟨⟨_, _, rfl, by decide⟩, by decide⟩
example : Spec.WholeLines l!"Welcome to host\nlast login __x__\n" := Or.inr ⟨l!"Welcome to host\nlast login __x__", rfl⟩
example : ∀ kv ∈ findall l!"bye __remote_pod=1__\n", kv.1 ≠ l!"remote_pid" := by decide +kernel
/-- quotes, newlines, non-ASCII and undecodable bytes in file names -/
example : Spec.GoodStr [34, 39, 92, 10, 36, 123, 228, 0x1F600, 0xDC80, 0xDCFF] := by
  refine ⟨by decide, ?_⟩
  intro u a b v h ⟨hh, hl⟩
  have : a ∈ ([34, 39, 92, 10, 36, 123, 228, 0x1F600, 0xDC80, 0xDCFF] : Str) := by rw [h]; simp
  unfold Spec.High at hh
  simp only [List.mem_cons, List.not_mem_nil, or_false] at this
  omega

end IPP.Shell
