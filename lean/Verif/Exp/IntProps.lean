import Verif.Exp.OptionsProps
import Mathlib.Tactic.IntervalCases

/-!
# C96: which texts `int` accepts

The grammar of Python's integer literals in base ten (ASCII), written down without reference to the model, and the proof that `pyInt` decides it.
-/

set_option linter.unusedSectionVars false

namespace Verif.Exp.Cmd

namespace Spec

/-- The white space of Python (ASCII): space, tab, line feed, vertical tab, form feed, carriage return and the four separators. -/
def spaces : List Char := [' ', '\t', '\n', '\x0b', '\x0c', '\r', '\x1c', '\x1d', '\x1e', '\x1f']

/-- The digits. -/
def digits : List Char := ['0', '1', '2', '3', '4', '5', '6', '7', '8', '9']

/-- `DigitsOf t n`: `t` is a sequence of digits, possibly with single underscores between digits, and `n` is its value in base ten. -/
inductive DigitsOf : Text → ℕ → Prop
  | one {c : Char} {k : ℕ} (h : digits[k]? = some c) : DigitsOf [c] k
  | more {t : Text} {n : ℕ} {c : Char} {k : ℕ} (ht : DigitsOf t n) (h : digits[k]? = some c) : DigitsOf (t ++ [c]) (10 * n + k)
  | under {t : Text} {n : ℕ} {c : Char} {k : ℕ} (ht : DigitsOf t n) (h : digits[k]? = some c) : DigitsOf (t ++ ['_', c]) (10 * n + k)

/-- `t` is an integer literal with value `z`: white space, a sign or none, digits, white space. -/
def IntLiteral (t : Text) (z : ℤ) : Prop :=
  ∃ (pre sign body post : Text) (n : ℕ), t = pre ++ sign ++ body ++ post ∧ (∀ c ∈ pre, c ∈ spaces) ∧ (∀ c ∈ post, c ∈ spaces) ∧ DigitsOf body n ∧
    ((sign = [] ∧ z = n) ∨ (sign = ['+'] ∧ z = n) ∨ (sign = ['-'] ∧ z = -n))

end Spec

open Spec

theorem char_of_nat {c : Char} {n : ℕ} (h : c.toNat = n) : c = Char.ofNat n := by rw [← h, Char.ofNat_toNat]

theorem isSpace_iff (c : Char) : isSpace c = true ↔ c ∈ spaces := by
  constructor
  · intro h
    simp only [isSpace, Bool.or_eq_true, decide_eq_true_eq] at h
    rcases h with (rfl | ⟨h1, h2⟩) | ⟨h1, h2⟩
    · decide
    · generalize hn : c.toNat = n at h1 h2
      rw [char_of_nat hn]
      interval_cases n <;> decide
    · generalize hn : c.toNat = n at h1 h2
      rw [char_of_nat hn]
      interval_cases n <;> decide
  · intro h
    have : ∀ c ∈ spaces, isSpace c = true := by decide
    exact this c h

theorem isDigit_iff (c : Char) : isDigit c = true ↔ digits[digitVal c]? = some c ∧ 48 ≤ c.toNat := by
  constructor
  · intro h
    simp only [isDigit, decide_eq_true_eq] at h
    obtain ⟨h1, h2⟩ := h
    refine ⟨?_, h1⟩
    unfold digitVal
    generalize hn : c.toNat = n at h1 h2
    rw [char_of_nat hn]
    interval_cases n <;> decide
  · rintro ⟨h, h1⟩
    obtain ⟨hk, -⟩ := List.getElem?_eq_some_iff.1 h
    simp only [isDigit, decide_eq_true_eq]
    refine ⟨h1, ?_⟩
    have : digits.length = 10 := rfl
    unfold digitVal at hk
    omega

theorem digit_table : ∀ k : Fin digits.length, isDigit digits[k] = true ∧ digitVal digits[k] = k := by decide +kernel

theorem digit_spec {c : Char} {k : ℕ} (h : digits[k]? = some c) : isDigit c = true ∧ digitVal c = k := by
  obtain ⟨hk, rfl⟩ := List.getElem?_eq_some_iff.1 h
  exact digit_table ⟨k, hk⟩

/-- The loop reads what it has read and what is left. -/
theorem intLoop_sound : ∀ (t : Text) {pre : Text} {acc m : ℕ}, DigitsOf pre acc → intLoop acc t = some m → DigitsOf (pre ++ t) m
  | [], pre, acc, m, hp, h => by
    simp only [intLoop, Option.some.injEq] at h
    rw [List.append_nil, ← h]; exact hp
  | [c], pre, acc, m, hp, h => by
    simp only [intLoop] at h
    split at h
    · rename_i hd
      cases h
      rw [Nat.mul_comm]
      exact .more hp ((isDigit_iff c).1 hd).1
    · cases h
  | c :: c' :: rest, pre, acc, m, hp, h => by
    simp only [intLoop] at h
    split at h
    · rename_i hd
      have := intLoop_sound (c' :: rest) (.more hp ((isDigit_iff c).1 hd).1) (by rw [Nat.mul_comm]; exact h)
      rwa [List.append_assoc] at this
    · split at h
      · rename_i hu
        obtain ⟨rfl, hd⟩ := hu
        have := intLoop_sound rest (.under hp ((isDigit_iff c').1 hd).1) (by rw [Nat.mul_comm]; exact h)
        rwa [List.append_assoc] at this
      · cases h

theorem intLoop_append : ∀ (t s : Text) {acc m : ℕ}, intLoop acc t = some m → intLoop acc (t ++ s) = intLoop m s
  | [], s, acc, m, h => by
    simp only [intLoop, Option.some.injEq] at h
    rw [h, List.nil_append]
  | [c], s, acc, m, h => by
    simp only [intLoop] at h
    split at h
    · rename_i hd
      cases h
      cases s with
      | nil => simp [intLoop, hd]
      | cons a s => simp [intLoop, hd]
    · cases h
  | c :: c' :: rest, s, acc, m, h => by
    simp only [intLoop] at h
    rw [List.cons_append, List.cons_append, intLoop]
    split at h
    · rename_i hd
      rw [if_pos hd]
      exact intLoop_append (c' :: rest) s h
    · rename_i hd
      rw [if_neg hd]
      split at h
      · rename_i hu
        rw [if_pos hu]
        exact intLoop_append rest s h
      · cases h

theorem natOf_append {t : Text} {n : ℕ} (s : Text) (h : natOf t = some n) : natOf (t ++ s) = intLoop n s := by
  cases t with
  | nil => cases h
  | cons c t =>
    simp only [natOf] at h
    split at h
    · rename_i hd
      rw [List.cons_append, natOf, if_pos hd]
      exact intLoop_append t s h
    · cases h

/-- The digits part. -/
theorem natOf_iff (t : Text) (n : ℕ) : natOf t = some n ↔ DigitsOf t n := by
  constructor
  · intro h
    cases t with
    | nil => cases h
    | cons c t =>
      simp only [natOf] at h
      split at h
      · rename_i hd
        exact intLoop_sound t (.one ((isDigit_iff c).1 hd).1) h
      · cases h
  · intro h
    induction h with
    | one h =>
      obtain ⟨h1, h2⟩ := digit_spec h
      simp [natOf, intLoop, h1, h2]
    | more ht h ih =>
      obtain ⟨h1, h2⟩ := digit_spec h
      rw [natOf_append _ ih]
      simp [intLoop, h1, h2, Nat.mul_comm]
    | under ht h ih =>
      obtain ⟨h1, h2⟩ := digit_spec h
      rw [natOf_append _ ih]
      have : isDigit '_' = false := by decide
      simp [intLoop, h1, h2, this, Nat.mul_comm]

theorem digits_chars {t : Text} {n : ℕ} (h : DigitsOf t n) : t ≠ [] ∧ (∀ c ∈ t.head?, isDigit c = true) ∧ ∀ c ∈ t.getLast?, isDigit c = true := by
  induction h with
  | one h => simp [(digit_spec h).1]
  | more ht h ih =>
    refine ⟨by simp, ?_, by simp [(digit_spec h).1]⟩
    intro c hc
    rw [List.head?_append_of_ne_nil _ ih.1] at hc
    exact ih.2.1 c hc
  | under ht h ih =>
    refine ⟨by simp, ?_, by simp [(digit_spec h).1]⟩
    intro c hc
    rw [List.head?_append_of_ne_nil _ ih.1] at hc
    exact ih.2.1 c hc

theorem dropWhile_pre {pre core : Text} (h1 : ∀ c ∈ pre, isSpace c = true) (h2 : ∀ c ∈ core.head?, isSpace c = false) (hne : core ≠ []) :
    (pre ++ core).dropWhile isSpace = core := by
  induction pre with
  | nil =>
    cases core with
    | nil => exact absurd rfl hne
    | cons c core => rw [List.nil_append, List.dropWhile_cons, h2 c (by simp)]; rfl
  | cons a pre ih =>
    rw [List.cons_append, List.dropWhile_cons, h1 a (by simp), if_pos rfl]
    exact ih fun c hc => h1 c (by simp [hc])

theorem strip_core {pre core post : Text} (h1 : ∀ c ∈ pre, isSpace c = true) (h2 : ∀ c ∈ post, isSpace c = true) (hne : core ≠ [])
    (h3 : ∀ c ∈ core.head?, isSpace c = false) (h4 : ∀ c ∈ core.getLast?, isSpace c = false) : strip (pre ++ core ++ post) = core := by
  unfold strip
  rw [List.append_assoc, dropWhile_pre h1 (by rw [List.head?_append_of_ne_nil _ hne]; exact h3) (by simp [hne]), List.reverse_append,
    dropWhile_pre (fun c hc => h2 c (List.mem_reverse.1 hc)) (by rw [List.head?_reverse]; exact h4) (by simp [hne]), List.reverse_reverse]

theorem takeWhile_space {t : Text} {c : Char} (h : c ∈ t.takeWhile isSpace) : isSpace c = true := by
  induction t with
  | nil => cases h
  | cons a t ih =>
    rw [List.takeWhile_cons] at h
    split at h
    · rename_i ha
      rcases List.mem_cons.1 h with rfl | h
      · exact ha
      · exact ih h
    · cases h

theorem strip_split (t : Text) : ∃ pre post : Text, t = pre ++ strip t ++ post ∧ (∀ c ∈ pre, isSpace c = true) ∧ ∀ c ∈ post, isSpace c = true := by
  refine ⟨t.takeWhile isSpace, ((t.dropWhile isSpace).reverse.takeWhile isSpace).reverse, ?_, ?_, ?_⟩
  · unfold strip
    rw [List.append_assoc, ← List.reverse_append, List.takeWhile_append_dropWhile, List.reverse_reverse, List.takeWhile_append_dropWhile]
  · exact fun c hc => takeWhile_space hc
  · exact fun c hc => takeWhile_space (List.mem_reverse.1 hc)

theorem digit_no_space {c : Char} (h : isDigit c = true) : isSpace c = false ∧ c ≠ '-' ∧ c ≠ '+' := by
  have h0 := ((isDigit_iff c).1 h).1
  have : ∀ c ∈ digits, isSpace c = false ∧ c ≠ '-' ∧ c ≠ '+' := by decide
  exact this c (List.mem_of_getElem? h0)

theorem pyInt_nosign {t : Text} (h : ∀ c ∈ (strip t).head?, c ≠ '-' ∧ c ≠ '+') : pyInt t = (natOf (strip t)).map fun n : ℕ => (n : ℤ) := by
  unfold pyInt
  generalize strip t = s at h
  split
  · exact absurd rfl (h '-' (by simp)).1
  · exact absurd rfl (h '+' (by simp)).2
  · rfl

/-- **C96, numbers.** `int(text)` accepts exactly the integer literals (white space, an optional sign, digits with single underscores between them, white
space) and returns their value. -/
theorem C96_int (t : Text) (z : ℤ) : pyInt t = some z ↔ IntLiteral t z := by
  constructor
  · intro h
    obtain ⟨pre, post, e, h1, h2⟩ := strip_split t
    have h1 : ∀ c ∈ pre, c ∈ spaces := fun c hc => (isSpace_iff c).1 (h1 c hc)
    have h2 : ∀ c ∈ post, c ∈ spaces := fun c hc => (isSpace_iff c).1 (h2 c hc)
    unfold pyInt at h
    generalize strip t = s at e h
    split at h
    · rename_i rest
      obtain ⟨n, hn, hz⟩ := Option.map_eq_some_iff.1 h
      exact ⟨pre, ['-'], rest, post, n, by simp [e], h1, h2, (natOf_iff _ _).1 hn, .inr (.inr ⟨rfl, hz.symm⟩)⟩
    · rename_i rest
      obtain ⟨n, hn, hz⟩ := Option.map_eq_some_iff.1 h
      exact ⟨pre, ['+'], rest, post, n, by simp [e], h1, h2, (natOf_iff _ _).1 hn, .inr (.inl ⟨rfl, hz.symm⟩)⟩
    · obtain ⟨n, hn, hz⟩ := Option.map_eq_some_iff.1 h
      exact ⟨pre, [], s, post, n, by simp [e], h1, h2, (natOf_iff _ _).1 hn, .inl ⟨rfl, hz.symm⟩⟩
  · rintro ⟨pre, sign, body, post, n, rfl, h1, h2, hd, hs⟩
    have h1 : ∀ c ∈ pre, isSpace c = true := fun c hc => (isSpace_iff c).2 (h1 c hc)
    have h2 : ∀ c ∈ post, isSpace c = true := fun c hc => (isSpace_iff c).2 (h2 c hc)
    obtain ⟨hne, hh, hl⟩ := digits_chars hd
    have hst : strip (pre ++ sign ++ body ++ post) = sign ++ body := by
      rw [List.append_assoc pre sign body]
      apply strip_core h1 h2 (by simp [hne])
      · intro c hc
        rcases hs with ⟨rfl, -⟩ | ⟨rfl, -⟩ | ⟨rfl, -⟩
        · exact (digit_no_space (hh c hc)).1
        · obtain rfl : '+' = c := by simpa using hc
          decide
        · obtain rfl : '-' = c := by simpa using hc
          decide
      · intro c hc
        rw [List.getLast?_append_of_ne_nil _ hne] at hc
        exact (digit_no_space (hl c hc)).1
    have hn := (natOf_iff _ _).2 hd
    rcases hs with ⟨rfl, rfl⟩ | ⟨rfl, rfl⟩ | ⟨rfl, rfl⟩
    · rw [pyInt_nosign, hst, List.nil_append, hn]
      · rfl
      · rw [hst]
        exact fun c hc => (digit_no_space (hh c hc)).2
    · unfold pyInt
      rw [hst]
      simp only [List.cons_append, List.nil_append, hn, Option.map_some]
    · unfold pyInt
      rw [hst]
      simp only [List.cons_append, List.nil_append, hn, Option.map_some]

/-- `" -1_0\n"` is the literal `-10`. -/
example : IntLiteral " -1_0\n".toList (-10) := (C96_int _ _).1 (by decide +kernel)

/-- `"1__0"`, `"_1"`, `"1_"`, `"+ 1"`, `""` and `"2.0"` are no literals. -/
example : ∀ t ∈ ["1__0", "_1", "1_", "+ 1", "", "2.0"], ∀ z, ¬ IntLiteral t.toList z := by
  intro t ht z h
  rw [← C96_int] at h
  have : ∀ t ∈ ["1__0", "_1", "1_", "+ 1", "", "2.0"], pyInt t.toList = none := by decide +kernel
  rw [this t ht] at h
  cases h

end Verif.Exp.Cmd
