import Mathlib.Data.Fintype.Basic
import Mathlib.Data.Nat.Digits.Lemmas
import Mathlib.Tactic.NormNum
import Verif.Exp.Options

/-!
# C96: the command line of the experiment
-/

set_option linter.unusedSimpArgs false

namespace Verif.Exp.Cmd

/-! ## Specification -/

namespace Spec

/-- What can be set on the command line. -/
inductive Opt where
  | train | test | sep | header | depth | iterations | limit | results
  deriving DecidableEq

instance : Fintype Opt where
  elems := ⟨↑[Opt.train, .test, .sep, .header, .depth, .iterations, .limit, .results], by decide⟩
  complete := by intro o; cases o <;> decide

def Opt.letter : Opt → Char
  | .train => 'T' | .test => 't' | .sep => 'S' | .header => 'H' | .depth => 'd' | .iterations => 'i' | .limit => 's' | .results => 'r'

def Opt.word : Opt → Text
  | .train => "train_file".toList | .test => "test_file".toList | .sep => "sep".toList | .header => "header".toList
  | .depth => "depth".toList | .iterations => "iterations".toList | .limit => "time_limit".toList | .results => "results_dir".toList

/-- The options whose value is a number. -/
def Opt.number : Opt → Bool
  | .header | .depth | .iterations | .limit => true
  | _ => false

/-- The ways of writing an option: `-d 3`, `-d3`, `--depth 3` and `--depth=3`, the last two with the first `n` letters of the word. -/
inductive Style where
  | short
  | glued
  | long (n : ℕ)
  | eq (n : ℕ)

/-- One option with its value. -/
structure Req where
  opt : Opt
  value : Text
  style : Style

/-- No other option begins like this. -/
def Opt.Unique (o : Opt) (n : ℕ) : Prop := ∀ o' : Opt, o.word.take n <+: o'.word → o' = o

/-- The option is written in a way that can be understood. -/
def Req.Ok (r : Req) : Prop :=
  match r.style with
  | .short => True
  | .glued => r.value ≠ []
  | .long n => r.opt.Unique n
  | .eq n => r.opt.Unique n

/-- The arguments for an option. -/
def Req.argv (r : Req) : List Text :=
  match r.style with
  | .short => [['-', r.opt.letter], r.value]
  | .glued => ['-' :: r.opt.letter :: r.value]
  | .long n => ['-' :: '-' :: r.opt.word.take n, r.value]
  | .eq n => ['-' :: '-' :: (r.opt.word.take n ++ '=' :: r.value)]

/-- A number is given where one is asked for. -/
def Req.Fine (r : Req) : Prop := r.opt.number = true → ∃ n, pyInt r.value = some n

/-- The arguments for a list of options. -/
def argvOf (l : List Req) : List Text := l.flatMap Req.argv

/-- The last value given for an option. -/
def last (l : List Req) (o : Opt) : Option Text := ((l.filter fun r => decide (r.opt = o)).getLast?).map Req.value

/-- The last value given for an option that is a number. -/
def lastInt (l : List Req) (o : Opt) : Option ℤ := (last l o).bind pyInt

/-- No more options: the end of the arguments, an argument that is no option, or `--`. -/
inductive Ends : List Text → Prop where
  | nil : Ends []
  | positional (a : Text) (rest : List Text) (h : a.head? ≠ some '-') : Ends (a :: rest)
  | dash (rest : List Text) : Ends (['-'] :: rest)
  | dashes (rest : List Text) : Ends (['-', '-'] :: rest)

/-- Arguments that cannot be understood. -/
inductive Bad : List Text → Prop where
  | letter (c : Char) (t : Text) (rest : List Text) (h1 : c ≠ '-') (h2 : c ≠ 'h') (h3 : ∀ o : Opt, c ≠ o.letter) : Bad (('-' :: c :: t) :: rest)
  | word (w t : Text) (rest : List Text) (h1 : w ++ t ≠ []) (h2 : '=' ∉ w) (h3 : t = [] ∨ t.head? = some '=')
      (h4 : ¬ ∃ o : Opt, w <+: o.word ∧ ∀ o' : Opt, w <+: o'.word → o' = o) : Bad (('-' :: '-' :: (w ++ t)) :: rest)
  | missing (o : Opt) : Bad [['-', o.letter]]
  | missingLong (o : Opt) (n : ℕ) (h : o.Unique n) : Bad ['-' :: '-' :: o.word.take n]

end Spec

open Spec

/-! ## `getopt` -/

theorem doShorts_length (short : Text) : ∀ (t : Text) (args : List Text) {r}, doShorts short t args = some r → r.2.length ≤ args.length
  | [], args, r, h => by
    simp only [doShorts, Option.some.injEq] at h
    subst h; exact le_refl _
  | opt :: t, args, r, h => by
    unfold doShorts at h
    split at h
    · cases h
    · split_ifs at h with h1
      · cases args with
        | nil => cases h
        | cons a args => simp only [Option.some.injEq] at h; subst h; simp
      · simp only [Option.some.injEq] at h; subst h; exact le_refl _
    · cases hd : doShorts short t args with
      | none => rw [hd] at h; cases h
      | some q =>
        have := doShorts_length short t args hd
        obtain ⟨a, b⟩ := q
        rw [hd] at h
        simp only [Option.some.injEq] at h; subst h; exact this

theorem doLongs_length (long : List Text) (opt : Text) (args : List Text) {r} (h : doLongs long opt args = some r) :
    r.2.length ≤ args.length := by
  unfold doLongs at h
  split at h
  · cases h
  · split at h
    · simp only [Option.some.injEq] at h; subst h; exact le_refl _
    · cases args with
      | nil => cases h
      | cons a args => simp only [Option.some.injEq] at h; subst h; simp
  · split at h
    · cases h
    · simp only [Option.some.injEq] at h; subst h; exact le_refl _

theorem getoptLoop_fuel (short : Text) (long : List Text) : ∀ (f : ℕ) (args : List Text), args.length ≤ f →
    getoptLoop short long f args = getopt short long args := by
  have key : ∀ (f g : ℕ) (args : List Text), args.length ≤ f → args.length ≤ g →
      getoptLoop short long f args = getoptLoop short long g args := by
    intro f
    induction f with
    | zero =>
      intro g args hf hg
      obtain rfl := List.eq_nil_of_length_eq_zero (Nat.le_zero.1 hf)
      cases g <;> rfl
    | succ f ih =>
      intro g args hf hg
      cases args with
      | nil => cases g <;> rfl
      | cons a args =>
        cases g with
        | zero => simp at hg
        | succ g =>
          simp only [List.length_cons, Nat.add_le_add_iff_right] at hf hg
          unfold getoptLoop
          split_ifs
          · rfl
          · rfl
          · cases hd : doLongs long (a.drop 2) args with
            | none => rfl
            | some q =>
              obtain ⟨o, args'⟩ := q
              have hl := doLongs_length long _ _ hd
              simp only at hl ⊢
              rw [ih g args' (by omega) (by omega)]
          · cases hd : doShorts short (a.drop 1) args with
            | none => rfl
            | some q =>
              obtain ⟨o, args'⟩ := q
              have hl := doShorts_length short _ _ hd
              simp only at hl ⊢
              rw [ih g args' (by omega) (by omega)]
  intro f args h
  exact key f args.length args h (le_refl _)

theorem getopt_long (short : Text) (long : List Text) (t : Text) (args : List Text) (ht : t ≠ []) :
    getopt short long (('-' :: '-' :: t) :: args) =
      (doLongs long t args).bind fun r => (getopt short long r.2).map fun os => r.1 :: os := by
  unfold getopt
  rw [List.length_cons, getoptLoop]
  rw [if_neg (by simp), if_neg (by simpa using ht), if_pos (by simp [List.isPrefixOf])]
  simp only [List.drop_succ_cons, List.drop_zero]
  cases hd : doLongs long t args with
  | none => rfl
  | some q =>
    obtain ⟨o, args'⟩ := q
    have hl := doLongs_length long _ _ hd
    simp only at hl ⊢
    rw [getoptLoop_fuel short long _ _ hl]
    simp only [Option.bind_some]
    cases hg : getopt short long args' <;> simp [getopt] at hg ⊢ <;> rw [hg] <;> simp

theorem getopt_short (short : Text) (long : List Text) (c : Char) (t : Text) (args : List Text) (hc : c ≠ '-') :
    getopt short long (('-' :: c :: t) :: args) =
      (doShorts short (c :: t) args).bind fun r => (getopt short long r.2).map fun os => r.1 ++ os := by
  unfold getopt
  rw [List.length_cons, getoptLoop]
  rw [if_neg (by simp), if_neg (by simp [hc]), if_neg (by simp [List.isPrefixOf, Ne.symm hc])]
  simp only [List.drop_succ_cons, List.drop_zero]
  cases hd : doShorts short (c :: t) args with
  | none => rfl
  | some q =>
    obtain ⟨o, args'⟩ := q
    have hl := doShorts_length short _ _ hd
    simp only at hl ⊢
    rw [getoptLoop_fuel short long _ _ hl]
    simp only [Option.bind_some]
    cases hg : getopt short long args' <;> simp [getopt] at hg ⊢ <;> rw [hg] <;> simp

theorem word_length (o : Opt) : o.word.length ≤ 11 := by revert o; decide +kernel

theorem word_no_eq (o : Opt) : '=' ∉ o.word := by revert o; decide +kernel

theorem take_no_eq (o : Opt) (n : ℕ) : '=' ∉ o.word.take n := fun h => word_no_eq o (List.mem_of_mem_take h)

instance (o : Opt) (n : ℕ) : Decidable (o.Unique n) := inferInstanceAs (Decidable (∀ o' : Opt, _ → _))

theorem unique_pos (o : Opt) {n : ℕ} (h : o.Unique n) : o.word.take n ≠ [] := by
  intro e
  unfold Opt.Unique at h
  rw [e] at h
  have h1 := h .train (List.nil_prefix)
  have h2 := h .test (List.nil_prefix)
  rw [← h1] at h2
  cases h2

theorem longHasArgs_word (o : Opt) (n : ℕ) (h : o.Unique n) : longHasArgs (o.word.take n) longOpts = some (true, o.word) := by
  have key : ∀ o : Opt, ∀ n < 12, o.Unique n → longHasArgs (o.word.take n) longOpts = some (true, o.word) := by decide +kernel
  by_cases hn : n < 12
  · exact key o n hn h
  · have h11 : o.word.take n = o.word.take 11 := by
      rw [List.take_of_length_le (by have := word_length o; omega), List.take_of_length_le (word_length o)]
    rw [h11]
    refine key o 11 (by omega) ?_
    unfold Opt.Unique at h ⊢
    rwa [← h11]

theorem splitEq_none {t : Text} (h : '=' ∉ t) : splitEq t = (t, none) := by unfold splitEq; rw [if_neg h]

theorem splitEq_some {t v : Text} (h : '=' ∉ t) : splitEq (t ++ '=' :: v) = (t, some v) := by
  unfold splitEq
  have hall : ∀ c ∈ t, (decide (c ≠ '=')) = true := by
    intro c hc
    rw [decide_eq_true_iff]
    rintro rfl; exact h hc
  rw [if_pos (by simp), List.takeWhile_append_of_pos hall, List.dropWhile_append_of_pos hall]
  simp

theorem doShorts_one {short : Text} {c : Char} {t : Text} {args : List Text} (h : shortHasArg c short = some true) :
    doShorts short (c :: t) args = if t = [] then (match args with | [] => none | a :: args => some ([(['-', c], a)], args))
      else some ([(['-', c], t)], args) := by
  unfold doShorts; simp only [h]; cases args <;> rfl

theorem doShorts_none {short : Text} {c : Char} {t : Text} {args : List Text} (h : shortHasArg c short = none) :
    doShorts short (c :: t) args = none := by
  unfold doShorts; rw [h]

/-- The pair that `getopt` finds. -/
def pairOf (r : Req) : Text × Text :=
  match r.style with
  | .short | .glued => (['-', r.opt.letter], r.value)
  | .long _ | .eq _ => ('-' :: '-' :: r.opt.word, r.value)

theorem shortHasArg_letter (o : Opt) : shortHasArg o.letter shortOpts = some true := by revert o; decide +kernel

theorem letter_ne (o : Opt) : o.letter ≠ '-' ∧ o.letter ≠ 'h' := by revert o; decide +kernel

/-- `getopt` finds the options that were written. -/
theorem getopt_req {r : Req} (h : r.Ok) (args : List Text) :
    getopt shortOpts longOpts (r.argv ++ args) = (getopt shortOpts longOpts args).map fun os => pairOf r :: os := by
  obtain ⟨o, v, st⟩ := r
  cases st with
  | short =>
    show getopt shortOpts longOpts (['-', o.letter] :: v :: args) = _
    rw [getopt_short _ _ _ _ _ (letter_ne o).1, doShorts_one (shortHasArg_letter o)]
    rfl
  | glued =>
    have hv : v ≠ [] := h
    show getopt shortOpts longOpts (('-' :: o.letter :: v) :: args) = _
    rw [getopt_short _ _ _ _ _ (letter_ne o).1, doShorts_one (shortHasArg_letter o)]
    simp only [if_neg hv, Option.bind_some]
    rfl
  | long n =>
    have hu : o.Unique n := h
    show getopt shortOpts longOpts (('-' :: '-' :: o.word.take n) :: v :: args) = _
    rw [getopt_long _ _ _ _ (unique_pos o hu)]
    unfold doLongs
    rw [splitEq_none (take_no_eq o n)]
    simp only [longHasArgs_word o n hu, Option.bind_some]
    rfl
  | eq n =>
    have hu : o.Unique n := h
    show getopt shortOpts longOpts (('-' :: '-' :: (o.word.take n ++ '=' :: v)) :: args) = _
    rw [getopt_long _ _ _ _ (by simp)]
    unfold doLongs
    rw [splitEq_some (take_no_eq o n)]
    simp only [longHasArgs_word o n hu, Option.bind_some]
    rfl

theorem getopt_ends {args : List Text} (h : Ends args) : getopt shortOpts longOpts args = some [] := by
  cases h with
  | nil => rfl
  | positional a rest h => unfold getopt; rw [List.length_cons, getoptLoop, if_pos (Or.inl h)]
  | dash rest => unfold getopt; rw [List.length_cons, getoptLoop, if_pos (Or.inr rfl)]
  | dashes rest => unfold getopt; rw [List.length_cons, getoptLoop, if_neg (by simp), if_pos rfl]

theorem getopt_reqs {l : List Req} (h : ∀ r ∈ l, r.Ok) (args : List Text) :
    getopt shortOpts longOpts (argvOf l ++ args) = (getopt shortOpts longOpts args).map fun os => l.map pairOf ++ os := by
  induction l with
  | nil => simp [argvOf]
  | cons r l ih =>
    rw [argvOf, List.flatMap_cons, List.append_assoc, getopt_req (h r (by simp))]
    have := ih fun r hr => h r (by simp [hr])
    rw [argvOf] at this
    rw [this]
    cases getopt shortOpts longOpts args <;> simp

theorem shortHasArg_none (c : Char) (h1 : c ≠ '-') (h2 : c ≠ 'h') (h3 : ∀ o : Opt, c ≠ o.letter) : shortHasArg c shortOpts = none := by
  have e : shortOpts = ['h', 'T', ':', 't', ':', 'S', ':', 'H', ':', 'd', ':', 'i', ':', 's', ':', 'r', ':'] := by decide +kernel
  have a1 := h3 .train; have a2 := h3 .test; have a3 := h3 .sep; have a4 := h3 .header
  have a5 := h3 .depth; have a6 := h3 .iterations; have a7 := h3 .limit; have a8 := h3 .results
  simp only [Opt.letter] at a1 a2 a3 a4 a5 a6 a7 a8
  rw [e]
  simp [shortHasArg, h2, a1, a2, a3, a4, a5, a6, a7, a8]

theorem longOpts_eq : longOpts = [Opt.train, .test, .sep, .header, .depth, .iterations, .limit, .results].map fun o => o.word ++ ['='] := by
  decide +kernel

theorem prefix_eq_iff {w v : Text} (h : '=' ∉ w) : w <+: v ++ ['='] ↔ w <+: v := by
  constructor
  · intro hp
    rcases List.prefix_concat_iff.1 hp with e | hp
    · exact absurd (by rw [e]; simp) h
    · exact hp
  · intro hp; exact hp.trans (List.prefix_append _ _)

theorem longHasArgs_none {w : Text} (h2 : '=' ∉ w) (h4 : ¬ ∃ o : Opt, w <+: o.word ∧ ∀ o' : Opt, w <+: o'.word → o' = o) :
    longHasArgs w longOpts = none := by
  have hmem : ∀ t, t ∈ longOpts.filter (fun o => w.isPrefixOf o) ↔ ∃ o : Opt, t = o.word ++ ['='] ∧ w <+: o.word := by
    intro t
    rw [List.mem_filter, longOpts_eq, List.mem_map, List.isPrefixOf_iff_prefix]
    constructor
    · rintro ⟨⟨o, -, rfl⟩, hp⟩; exact ⟨o, rfl, (prefix_eq_iff h2).1 hp⟩
    · rintro ⟨o, rfl, hp⟩
      exact ⟨⟨o, by cases o <;> decide, rfl⟩, (prefix_eq_iff h2).2 hp⟩
  unfold longHasArgs
  simp only
  by_cases he : longOpts.filter (fun o => w.isPrefixOf o) = []
  · rw [if_pos he]
  · rw [if_neg he, if_neg, if_neg, if_pos]
    · by_contra hlen
      have h1 : (longOpts.filter (fun o => w.isPrefixOf o)).length = 1 := by
        have := List.length_pos_of_ne_nil he
        omega
      obtain ⟨t, ht⟩ := List.length_eq_one_iff.1 h1
      rw [ht] at hmem
      obtain ⟨o, hto, hpo⟩ := (hmem t).1 (by simp)
      refine h4 ⟨o, hpo, fun o' ho' => ?_⟩
      have : o'.word ++ ['='] = t := by simpa using (hmem (o'.word ++ ['='])).2 ⟨o', rfl, ho'⟩
      have hw : o'.word = o.word := by rw [hto] at this; exact List.append_cancel_right this
      have inj : ∀ a b : Opt, a.word = b.word → a = b := by decide +kernel
      exact inj _ _ hw
    · intro hm
      obtain ⟨o, e, -⟩ := (hmem _).1 hm
      have e' : w = o.word := List.append_cancel_right e
      have hpre : ∀ a b : Opt, a.word <+: b.word → b = a := by decide +kernel
      exact h4 ⟨o, by rw [e'], fun o' ho' => hpre o o' (by rwa [e'] at ho')⟩
    · intro hm
      obtain ⟨o, e, -⟩ := (hmem _).1 hm
      exact h2 (by rw [e]; simp)

theorem getopt_bad {args : List Text} (h : Bad args) : getopt shortOpts longOpts args = none := by
  cases h with
  | letter c t rest h1 h2 h3 =>
    rw [getopt_short _ _ _ _ _ h1, doShorts_none (shortHasArg_none c h1 h2 h3)]
    rfl
  | word w t rest h1 h2 h3 h4 =>
    rw [getopt_long _ _ _ _ h1]
    have hs : (splitEq (w ++ t)).1 = w := by
      rcases h3 with rfl | h3
      · rw [List.append_nil, splitEq_none h2]
      · cases t with
        | nil => cases h3
        | cons c t =>
          simp only [List.head?_cons, Option.some.injEq] at h3
          rw [h3, splitEq_some h2]
    unfold doLongs
    rw [hs, longHasArgs_none h2 h4]
    rfl
  | missing o =>
    rw [getopt_short _ _ _ _ _ (letter_ne o).1, doShorts_one (shortHasArg_letter o)]
    rfl
  | missingLong o n hu =>
    rw [getopt_long _ _ _ _ (unique_pos o hu)]
    unfold doLongs
    rw [splitEq_none (take_no_eq o n)]
    simp only [longHasArgs_word o n hu, Option.bind_none]

/-! ## The loop over the options -/

/-- The effect of an option on the settings. -/
def effect (s : Settings) (o : Opt) (v : Text) : Settings :=
  match o with
  | .train => { s with trainFile := v }
  | .test => { s with testFile := v }
  | .sep => { s with sep := v }
  | .header => { s with header := if (pyInt v).getD 0 < 0 then none else some ((pyInt v).getD 0) }
  | .depth => { s with depth := (pyInt v).getD 0 }
  | .iterations => { s with maxIterations := (pyInt v).getD 0 }
  | .limit => { s with
      timeLimit := (pyInt v).getD 0
      prepLimit := (((pyInt v).getD 0 : ℤ) : ℚ) / 3 }
  | .results => { s with resultsDir := "results/".toList ++ v ++ ['/'] }

theorem applyOption_refused (s : Settings) (o : Opt) (v : Text) (h : o.number = true) (hv : pyInt v = none) :
    applyOption s (['-', o.letter], v) = .error (.raised .valueError) ∧
      applyOption s ('-' :: '-' :: o.word, v) = .error (.raised .valueError) := by
  cases o with
  | train | test | sep | results => cases h
  | header | depth | iterations | limit =>
    constructor
    · show (match pyInt v with | none => _ | some n => _) = _
      rw [hv]
    · show (match pyInt v with | none => _ | some n => _) = _
      rw [hv]

theorem applyOption_int (s : Settings) (o : Opt) (v : Text) (h : o.number = true) {n : ℤ} (hv : pyInt v = some n) :
    applyOption s (['-', o.letter], v) = .ok (effect s o v) ∧ applyOption s ('-' :: '-' :: o.word, v) = .ok (effect s o v) := by
  cases o with
  | train | test | sep | results => cases h
  | header | depth | iterations | limit =>
    unfold effect
    simp only [hv, Option.getD_some]
    constructor
    · show (match pyInt v with | none => _ | some n => _) = _
      rw [hv]
    · show (match pyInt v with | none => _ | some n => _) = _
      rw [hv]

theorem applyOption_text (s : Settings) (o : Opt) (v : Text) (h : o.number = false) :
    applyOption s (['-', o.letter], v) = .ok (effect s o v) ∧ applyOption s ('-' :: '-' :: o.word, v) = .ok (effect s o v) := by
  cases o with
  | train | test | sep | results => exact ⟨rfl, rfl⟩
  | header | depth | iterations | limit => cases h

theorem applyOption_eq (s : Settings) (r : Req) : applyOption s (pairOf r) =
    if r.opt.number = true ∧ pyInt r.value = none then .error (.raised .valueError) else .ok (effect s r.opt r.value) := by
  have key : ∀ x : Except Stop Settings, applyOption s (['-', r.opt.letter], r.value) = x ∧
      applyOption s ('-' :: '-' :: r.opt.word, r.value) = x → applyOption s (pairOf r) = x := by
    intro x hx
    obtain ⟨o, v, st⟩ := r
    cases st with
    | short | glued => exact hx.1
    | long | eq => exact hx.2
  by_cases hn : r.opt.number = true
  · cases hv : pyInt r.value with
    | none => rw [if_pos ⟨hn, rfl⟩]; exact key _ (applyOption_refused s _ _ hn hv)
    | some n => rw [if_neg (by simp)]; exact key _ (applyOption_int s _ _ hn hv)
  · rw [if_neg fun h => hn h.1]
    exact key _ (applyOption_text s _ _ (by simpa using hn))

theorem fold_fine : ∀ (l : List Req) (s : Settings), (∀ r ∈ l, r.Fine) →
    (l.map pairOf).foldlM applyOption s = (.ok (l.foldl (fun s r => effect s r.opt r.value) s) : Except Stop Settings)
  | [], s, _ => rfl
  | r :: l, s, h => by
    rw [List.map_cons, List.foldlM_cons, applyOption_eq, if_neg, List.foldl_cons]
    · exact fold_fine l _ fun r hr => h r (by simp [hr])
    · rintro ⟨h1, h2⟩
      obtain ⟨n, hn⟩ := h r (by simp) h1
      rw [hn] at h2; cases h2

theorem last_append (l : List Req) (r : Req) (o : Opt) : last (l ++ [r]) o = if r.opt = o then some r.value else last l o := by
  unfold last
  rw [List.filter_append]
  by_cases h : r.opt = o
  · simp [h]
  · simp [h]

theorem last_mem {l : List Req} {o : Opt} {v : Text} (h : last l o = some v) : ∃ r ∈ l, r.opt = o ∧ r.value = v := by
  unfold last at h
  obtain ⟨r, hr, e⟩ := Option.map_eq_some_iff.1 h
  have := List.mem_of_getLast? hr
  rw [List.mem_filter, decide_eq_true_iff] at this
  exact ⟨r, this.1, this.2, e⟩

/-- The settings after a list of options. -/
structure Set (l : List Req) (s : Settings) : Prop where
  train : s.trainFile = (last l .train).getD []
  test : s.testFile = (last l .test).getD []
  sep : s.sep = (last l .sep).getD [',']
  header : s.header = if (lastInt l .header).getD 0 < 0 then none else some ((lastInt l .header).getD 0)
  depth : s.depth = (lastInt l .depth).getD 2
  iterations : s.maxIterations = (lastInt l .iterations).getD (-1)
  limit : s.timeLimit = (lastInt l .limit).getD 600
  prep : s.prepLimit = (s.timeLimit : ℚ) / 3
  results : s.resultsDir = ((last l .results).map fun v => "results/".toList ++ v ++ ['/']).getD "results/".toList

theorem fold_set (l : List Req) (h : ∀ r ∈ l, r.Fine) : Set l (l.foldl (fun s r => effect s r.opt r.value) defaults) := by
  induction l using List.reverseRecOn with
  | nil =>
    refine ⟨rfl, rfl, rfl, rfl, rfl, rfl, rfl, ?_, rfl⟩
    show (200 : ℚ) = ((600 : ℤ) : ℚ) / 3
    norm_num
  | append_singleton l r ih =>
    have ih := ih fun r hr => h r (by simp [hr])
    have hf := h r (by simp)
    rw [List.foldl_append, List.foldl_cons, List.foldl_nil]
    generalize l.foldl (fun s r => effect s r.opt r.value) defaults = s at ih ⊢
    obtain ⟨o, v, st⟩ := r
    cases o with
    | train | test | sep | results =>
      constructor <;> (try simp [effect, lastInt, last_append, ih.train, ih.test, ih.sep, ih.header, ih.depth, ih.iterations, ih.limit, ih.results, ih.prep]) <;> (try rfl)
    | header | depth | iterations | limit =>
      obtain ⟨n, hn⟩ := hf rfl
      simp only at hn
      constructor <;> (try simp [effect, lastInt, last_append, hn, ih.train, ih.test, ih.sep, ih.header, ih.depth, ih.iterations, ih.limit, ih.results, ih.prep]) <;> (try rfl)

/-! ## C96 -/

/-- **C96, settings.** However the options are written and ordered, every setting has the value given last, or the default. The limit for the
preparation is a third of the time limit. Arguments from the first one on that is no option have no effect. -/
theorem C96_settings {l : List Req} {rest : List Text} (hok : ∀ r ∈ l, r.Ok) (hfine : ∀ r ∈ l, r.Fine) (hend : Ends rest) :
    ∃ s, settings (argvOf l ++ rest) = .ok s ∧
      s.trainFile = (last l .train).getD [] ∧ s.testFile = (last l .test).getD [] ∧ s.sep = (last l .sep).getD [','] ∧
      s.header = (if (lastInt l .header).getD 0 < 0 then none else some ((lastInt l .header).getD 0)) ∧
      s.depth = (lastInt l .depth).getD 2 ∧ s.maxIterations = (lastInt l .iterations).getD (-1) ∧
      s.timeLimit = (lastInt l .limit).getD 600 ∧ s.prepLimit = (s.timeLimit : ℚ) / 3 ∧
      s.resultsDir = (match last l .results with | none => "results/".toList | some v => "results/".toList ++ v ++ ['/']) := by
  have hs := fold_set l hfine
  refine ⟨_, ?_, hs.train, hs.test, hs.sep, hs.header, hs.depth, hs.iterations, hs.limit, hs.prep, ?_⟩
  · unfold settings
    rw [getopt_reqs hok, getopt_ends hend, Option.map_some, List.append_nil]
    exact fold_fine l defaults hfine
  · rw [hs.results]
    cases last l .results <;> rfl

/-- **C96, order.** Options may be exchanged as long as the order of the values for each single option stays the same, and it does not matter
how they are written. -/
theorem C96_order {l l' : List Req} {rest rest' : List Text} (hok : ∀ r ∈ l, r.Ok) (hfine : ∀ r ∈ l, r.Fine) (hok' : ∀ r ∈ l', r.Ok)
    (hfine' : ∀ r ∈ l', r.Fine) (hend : Ends rest) (hend' : Ends rest') (hsame : ∀ o, last l o = last l' o) :
    settings (argvOf l ++ rest) = settings (argvOf l' ++ rest') := by
  obtain ⟨s, h, h1, h2, h3, h4, h5, h6, h7, h8, h9⟩ := C96_settings hok hfine hend
  obtain ⟨s', h', h1', h2', h3', h4', h5', h6', h7', h8', h9'⟩ := C96_settings hok' hfine' hend'
  rw [h, h']
  congr 1
  unfold lastInt at *
  simp only [hsame] at h1 h2 h3 h4 h5 h6 h7 h9
  obtain ⟨a1, a2, a3, a4, a5, a6, a7, a8, a9⟩ := s
  obtain ⟨b1, b2, b3, b4, b5, b6, b7, b8, b9⟩ := s'
  simp only at *
  subst h1 h2 h3 h4 h5 h6 h7 h9 h1' h2' h3' h4' h5' h6' h7' h9' h8 h8'
  rfl

/-- **C96, misuse.** Arguments that cannot be understood end the program with code 2, whatever precedes them. -/
theorem C96_misuse {l : List Req} {rest : List Text} (hok : ∀ r ∈ l, r.Ok) (hbad : Bad rest) :
    settings (argvOf l ++ rest) = .error (.exit 2) := by
  unfold settings
  rw [getopt_reqs hok, getopt_bad hbad]
  rfl

/-- Of a value that is no number and `-h` the first one decides. -/
theorem first_decides {l m : List Req} {rest mid : List Text} {o : Text × Text} {e : Stop} (hok : ∀ r ∈ l ++ m, r.Ok) (hfine : ∀ r ∈ l, r.Fine)
    (hend : Ends rest) (hmid : ∀ args, getopt shortOpts longOpts (mid ++ args) = (getopt shortOpts longOpts args).map fun os => o :: os)
    (ho : ∀ s, applyOption s o = .error e) : settings (argvOf l ++ (mid ++ (argvOf m ++ rest))) = .error e := by
  unfold settings
  rw [getopt_reqs (fun r hr => hok r (by simp [hr])), hmid, getopt_reqs (fun r hr => hok r (by simp [hr])), getopt_ends hend]
  simp only [Option.map_some, List.append_nil]
  rw [List.foldlM_append, fold_fine l _ hfine]
  show (List.foldlM applyOption _ (o :: m.map pairOf) : Except Stop Settings) = _
  rw [List.foldlM_cons, ho]
  rfl

/-- **C96, help.** `-h` ends the program with code 0, if no value before it is refused. -/
theorem C96_help {l m : List Req} {rest : List Text} (hok : ∀ r ∈ l ++ m, r.Ok) (hfine : ∀ r ∈ l, r.Fine) (hend : Ends rest) :
    settings (argvOf l ++ (["-h".toList] ++ (argvOf m ++ rest))) = .error (.exit 0) := by
  refine first_decides (o := ("-h".toList, [])) hok hfine hend (fun args => ?_) fun s => rfl
  show getopt shortOpts longOpts (['-', 'h'] :: args) = _
  rw [getopt_short _ _ _ _ _ (by decide)]
  have : doShorts shortOpts ['h'] args = some ([(['-', 'h'], [])], args) := by
    unfold doShorts
    rw [show shortHasArg 'h' shortOpts = some false by decide +kernel]
    rfl
  rw [this]
  rfl

/-- **C96, refused values.** The first value that is no number, where one is asked for, raises `ValueError`. -/
theorem C96_value {l m : List Req} {r : Req} {rest : List Text} (hok : ∀ r ∈ l ++ m, r.Ok) (hr : r.Ok) (hfine : ∀ r ∈ l, r.Fine)
    (hend : Ends rest) (hnum : r.opt.number = true) (hval : pyInt r.value = none) :
    settings (argvOf l ++ (r.argv ++ (argvOf m ++ rest))) = .error (.raised .valueError) := by
  refine first_decides (o := pairOf r) hok hfine hend (getopt_req hr) fun s => ?_
  rw [applyOption_eq, if_pos ⟨hnum, hval⟩]

/-- What holds for the settings whatever the arguments are. -/
structure Sane (s : Settings) : Prop where
  prep : s.prepLimit = (s.timeLimit : ℚ) / 3
  header : ∀ n, s.header = some n → 0 ≤ n
  results : ∃ t, s.resultsDir = "results/".toList ++ t ∧ (t = [] ∨ t.getLast? = some '/')

theorem Sane.step {s s' : Settings} {o : Text × Text} (h : Sane s) (he : applyOption s o = .ok s') : Sane s' := by
  unfold applyOption at he
  simp only at he
  have hlt : ∀ n : ℤ, ∀ m, (if n < 0 then none else some n) = some m → 0 ≤ m := by
    intro n m e
    split_ifs at e with hn
    obtain rfl := Option.some.inj e
    omega
  split_ifs at he
  all_goals first
    | (obtain rfl := Except.ok.inj he; exact ⟨h.prep, h.header, h.results⟩)
    | (obtain rfl := Except.ok.inj he; exact ⟨h.prep, h.header, o.2 ++ ['/'], List.append_assoc _ _ _, Or.inr (by simp)⟩)
    | (cases hv : pyInt o.2 with
       | none => rw [hv] at he; cases he
       | some n =>
         rw [hv] at he
         obtain rfl := Except.ok.inj he
         first
           | exact ⟨h.prep, h.header, h.results⟩
           | exact ⟨rfl, h.header, h.results⟩
           | exact ⟨h.prep, hlt n, h.results⟩)

theorem Sane.fold : ∀ (os : List (Text × Text)) {s s' : Settings}, Sane s → os.foldlM applyOption s = (.ok s' : Except Stop Settings) → Sane s'
  | [], s, s', h, he => by
    obtain rfl := Except.ok.inj he
    exact h
  | o :: os, s, s', h, he => by
    rw [List.foldlM_cons] at he
    cases h1 : applyOption s o with
    | error e => rw [h1] at he; cases he
    | ok s1 =>
      rw [h1] at he
      exact Sane.fold os (h.step h1) he

/-- **C96, all arguments.** Whatever the arguments are, if there are settings at all, the limit for the preparation is a third of the time limit
(in particular it is positive exactly if the time limit is), a header line has a number from 0 on, and the result directory begins with
`results/` and ends with a slash. -/
theorem C96_all {argv : List Text} {s : Settings} (h : settings argv = .ok s) : s.prepLimit = (s.timeLimit : ℚ) / 3 ∧
    (∀ n, s.header = some n → 0 ≤ n) ∧ "results/".toList <+: s.resultsDir ∧ s.resultsDir.getLast? = some '/' := by
  unfold settings at h
  cases hg : getopt shortOpts longOpts argv with
  | none => rw [hg] at h; cases h
  | some os =>
    rw [hg] at h
    have := Sane.fold os (s := defaults) ⟨by show (200 : ℚ) = ((600 : ℤ) : ℚ) / 3; norm_num, by
      intro n e
      obtain rfl := Option.some.inj e
      exact le_refl _, [], rfl, Or.inl rfl⟩ h
    obtain ⟨h1, h2, t, h3, h4⟩ := this
    refine ⟨h1, h2, ⟨t, h3.symm⟩, ?_⟩
    rw [h3]
    rcases h4 with rfl | h4
    · decide
    · rw [List.getLast?_append, h4]; rfl

/-! ## Numbers -/

theorem natText_digits (n : ℕ) : ∃ ds : List ℕ, natText n = ds.map (fun k => Char.ofNat (48 + k)) ∧ ds ≠ [] ∧ (∀ k ∈ ds, k < 10) ∧
    ds.foldl (fun a k => a * 10 + k) 0 = n := by
  by_cases h : n = 0
  · subst h
    exact ⟨[0], by decide +kernel, by simp, by simp, rfl⟩
  · refine ⟨(Nat.digits 10 n).reverse, ?_, ?_, ?_, ?_⟩
    · unfold natText; rw [if_neg h, List.map_reverse]
    · rw [Ne, List.reverse_eq_nil_iff, Nat.digits_eq_nil_iff_eq_zero]; exact h
    · intro k hk
      exact Nat.digits_lt_base (by norm_num) (List.mem_reverse.1 hk)
    · rw [List.foldl_reverse]
      have key : ∀ l : List ℕ, l.foldr (fun k a => a * 10 + k) 0 = Nat.ofDigits 10 l := by
        intro l
        induction l with
        | nil => rfl
        | cons a l ih => rw [List.foldr_cons, ih, Nat.ofDigits_cons]; omega
      rw [key, Nat.ofDigits_digits]

theorem digit_char : ∀ k < 10, isDigit (Char.ofNat (48 + k)) = true ∧ digitVal (Char.ofNat (48 + k)) = k ∧ isSpace (Char.ofNat (48 + k)) = false ∧
    Char.ofNat (48 + k) ≠ '-' ∧ Char.ofNat (48 + k) ≠ '+' ∧ Char.ofNat (48 + k) ≠ '_' := by decide +kernel

theorem intLoop_digits : ∀ (ds : List ℕ) (acc : ℕ), (∀ k ∈ ds, k < 10) →
    intLoop acc (ds.map fun k => Char.ofNat (48 + k)) = some (ds.foldl (fun a k => a * 10 + k) acc)
  | [], acc, _ => rfl
  | [k], acc, h => by
    obtain ⟨h1, h2, -⟩ := digit_char k (h k (by simp))
    simp [intLoop, h1, h2]
  | k :: k' :: ds, acc, h => by
    obtain ⟨h1, h2, -⟩ := digit_char k (h k (by simp))
    rw [List.map_cons, List.map_cons, intLoop, if_pos h1, h2, List.foldl_cons]
    exact intLoop_digits (k' :: ds) _ fun k hk => h k (by simp [hk])

theorem natOf_natText (n : ℕ) : natOf (natText n) = some n := by
  obtain ⟨ds, h1, h2, h3, h4⟩ := natText_digits n
  rw [h1]
  cases ds with
  | nil => exact absurd rfl h2
  | cons k ds =>
    obtain ⟨a1, a2, -⟩ := digit_char k (h3 k (by simp))
    rw [List.map_cons, natOf, if_pos a1, a2, intLoop_digits ds _ fun k hk => h3 k (by simp [hk])]
    rw [List.foldl_cons, Nat.zero_mul, Nat.zero_add] at h4
    rw [h4]

theorem strip_id {t : Text} (h : ∀ c ∈ t, isSpace c = false) : strip t = t := by
  unfold strip
  have key : ∀ l : Text, (∀ c ∈ l, isSpace c = false) → l.dropWhile isSpace = l := by
    intro l hl
    cases l with
    | nil => rfl
    | cons c l => rw [List.dropWhile_cons, hl c (by simp)]; rfl
  rw [key t h, key _ (fun c hc => h c (List.mem_reverse.1 hc)), List.reverse_reverse]

theorem natText_head (n : ℕ) : ∃ c t, natText n = c :: t ∧ c ≠ '-' ∧ c ≠ '+' := by
  obtain ⟨ds, h1, h2, h3, -⟩ := natText_digits n
  cases ds with
  | nil => exact absurd rfl h2
  | cons k ds =>
    obtain ⟨-, -, -, a4, a5, -⟩ := digit_char k (h3 k (by simp))
    exact ⟨_, _, h1, a4, a5⟩

theorem natText_chars (n : ℕ) : ∀ c ∈ natText n, isSpace c = false ∧ isDigit c = true := by
  obtain ⟨ds, h1, -, h3, -⟩ := natText_digits n
  intro c hc
  rw [h1] at hc
  obtain ⟨k, hk, rfl⟩ := List.mem_map.1 hc
  obtain ⟨a1, -, a3, -⟩ := digit_char k (h3 k hk)
  exact ⟨a3, a1⟩

/-- **C96, numbers.** Every integer written in the usual way is understood as that integer. -/
theorem C96_numbers (n : ℤ) : pyInt (intText n) = some n := by
  unfold pyInt intText
  by_cases h : n < 0
  · rw [if_pos h, strip_id]
    · simp only [natOf_natText, Option.map_some, Option.some.injEq]; omega
    · intro c hc
      rcases List.mem_cons.1 hc with rfl | hc
      · decide
      · exact (natText_chars _ c hc).1
  · rw [if_neg h, strip_id fun c hc => (natText_chars _ c hc).1]
    obtain ⟨c, t, e, h1, h2⟩ := natText_head n.natAbs
    have := natOf_natText n.natAbs
    rw [e] at this ⊢
    split
    · rename_i heq; exact absurd (List.cons.inj heq).1 h1
    · rename_i heq; exact absurd (List.cons.inj heq).1 h2
    · rw [this, Option.map_some]
      congr 1
      omega

/-! ## C97: the result file -/

/-- A text is cut in one way only at the last occurrence of a character. -/
theorem cut_last {c : Char} {a a' b b' : Text} (hb : c ∉ b) (hb' : c ∉ b') (h : a ++ c :: b = a' ++ c :: b') : a = a' ∧ b = b' := by
  have key : ∀ (x y : Text), c ∉ y → ((x ++ c :: y).reverse.takeWhile (· ≠ c)).reverse = y := by
    intro x y hy
    rw [List.reverse_append, List.reverse_cons, List.append_assoc, List.takeWhile_append_of_pos]
    · simp
    · intro d hd
      rw [decide_eq_true_iff]
      rintro rfl
      exact hy (List.mem_reverse.1 hd)
  have e : b = b' := by rw [← key a b hb, ← key a' b' hb', h]
  subst e
  exact ⟨List.append_cancel_right h, rfl⟩

theorem intText_chars (n : ℤ) : ∀ c ∈ intText n, c = '-' ∨ isDigit c = true := by
  intro c hc
  unfold intText at hc
  split_ifs at hc
  · rcases List.mem_cons.1 hc with rfl | hc
    · exact Or.inl rfl
    · exact Or.inr (natText_chars _ c hc).2
  · exact Or.inr (natText_chars _ c hc).2

theorem intText_inj {m n : ℤ} (h : intText m = intText n) : m = n := by
  have := C96_numbers m
  rw [h, C96_numbers] at this
  exact (Option.some.inj this).symm

theorem intText_not_mem (n : ℤ) {c : Char} (h1 : c ≠ '-') (h2 : isDigit c = false) : c ∉ intText n := by
  intro h
  rcases intText_chars n c h with rfl | h
  · exact h1 rfl
  · rw [h2] at h; cases h

theorem basename_no_slash (p : Text) : '/' ∉ basename p := by
  intro h
  unfold basename at h
  have := List.all_eq_true.1 List.all_takeWhile _ (List.mem_reverse.1 h)
  simp at this

/-- The part of the name of the result file after the directory. -/
theorem resultsFile_eq (s : Settings) : resultsFile s = s.resultsDir ++ (("T_".toList ++ basename s.trainFile ++ "_d".toList) ++
    ('_' :: intText s.depth) ++ "_results.csv".toList) := by
  unfold resultsFile
  simp only [List.append_assoc]
  rfl

theorem tail_no_slash (s : Settings) : '/' ∉ ("T_".toList ++ basename s.trainFile ++ "_d".toList) ++ ('_' :: intText s.depth) ++
    "_results.csv".toList := by
  simp only [List.mem_append, List.mem_cons, not_or]
  exact ⟨⟨⟨⟨by decide, basename_no_slash _⟩, by decide⟩, by decide, intText_not_mem _ (by decide) (by decide)⟩, by decide⟩

/-- **C97.** Two experiments write to the same result file exactly if directory of the results, name of the training file (without its directory)
and depth are the same. -/
theorem C97_result_file {argv argv' : List Text} {s s' : Settings} (h : settings argv = .ok s) (h' : settings argv' = .ok s') :
    resultsFile s = resultsFile s' ↔
      s.resultsDir = s'.resultsDir ∧ basename s.trainFile = basename s'.trainFile ∧ s.depth = s'.depth := by
  constructor
  · intro he
    obtain ⟨D, hD⟩ := List.getLast?_eq_some_iff.1 (C96_all h).2.2.2
    obtain ⟨D', hD'⟩ := List.getLast?_eq_some_iff.1 (C96_all h').2.2.2
    have hcut : ∀ D t : Text, (D ++ ['/']) ++ t = D ++ '/' :: t := fun D t => by simp
    rw [resultsFile_eq, resultsFile_eq, hD, hD', hcut, hcut] at he
    obtain ⟨h1, h2⟩ := cut_last (tail_no_slash s) (tail_no_slash s') he
    obtain ⟨h3, h4⟩ := cut_last (intText_not_mem _ (by decide) (by decide)) (intText_not_mem _ (by decide) (by decide))
      (List.append_cancel_right h2)
    refine ⟨by rw [hD, hD', h1], ?_, intText_inj h4⟩
    exact List.append_cancel_left (List.append_cancel_right h3)
  · rintro ⟨h1, h2, h3⟩
    unfold resultsFile
    rw [h1, h2, h3]

end Verif.Exp.Cmd
