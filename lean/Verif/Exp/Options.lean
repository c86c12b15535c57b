import Mathlib.Data.Nat.Digits.Defs
import Mathlib.Data.Rat.Defs
import Verif.Py

/-!
# Model of the command line of `examples/dtree_experiment.py`

The settings of an experiment: `getopt` of the Python standard library, the loop over its answer and the name of the result file. Texts are
lists of characters.
-/

namespace Verif.Exp.Cmd

/-- A Python `str`. -/
abbrev Text := List Char

/-! ## `getopt` -/

/-- The short options of `dtree_experiment.py:74`. -/
def shortOpts : Text := "hT:t:S:H:d:i:s:r:".toList

/-- The long options of `dtree_experiment.py:75-82`. -/
def longOpts : List Text := ["train_file=".toList, "test_file=".toList, "sep=".toList, "header=".toList, "depth=".toList,
  "iterations=".toList, "time_limit=".toList, "results_dir=".toList]

/-- `short_has_arg` of Python's `getopt.py`; `none` is `GetoptError`. -/
def shortHasArg (opt : Char) : Text → Option Bool
  | [] => none
  | c :: rest => if opt = c ∧ c ≠ ':' then some (rest.head? == some ':') else shortHasArg opt rest

/-- `do_shorts` of Python's `getopt.py`: the pairs found and the remaining arguments; `none` is `GetoptError`. -/
def doShorts (short : Text) : Text → List Text → Option (List (Text × Text) × List Text)
  | [], args => some ([], args)
  | opt :: optstring, args =>
    match shortHasArg opt short with
    | none => none
    | some true =>
      if optstring = [] then
        match args with
        | [] => none
        | a :: args => some ([(['-', opt], a)], args)
      else some ([(['-', opt], optstring)], args)
    | some false =>
      match doShorts short optstring args with
      | none => none
      | some (opts, args) => some ((['-', opt], []) :: opts, args)

/-- `long_has_args` of Python's `getopt.py`; `none` is `GetoptError`. -/
def longHasArgs (opt : Text) (long : List Text) : Option (Bool × Text) :=
  let possibilities := long.filter fun o => opt.isPrefixOf o
  if possibilities = [] then none
  else if opt ∈ possibilities then some (false, opt)
  else if opt ++ ['='] ∈ possibilities then some (true, opt)
  else if possibilities.length > 1 then none
  else
    let m := possibilities.headD []
    if m.getLast? = some '=' then some (true, m.dropLast) else some (false, m)

/-- `opt.index('=')` and the two parts, in `do_longs` of Python's `getopt.py`. -/
def splitEq (opt : Text) : Text × Option Text :=
  if '=' ∈ opt then (opt.takeWhile (· ≠ '='), some ((opt.dropWhile (· ≠ '=')).tail)) else (opt, none)

/-- `do_longs` of Python's `getopt.py`: the pair found and the remaining arguments; `none` is `GetoptError`. -/
def doLongs (long : List Text) (opt : Text) (args : List Text) : Option ((Text × Text) × List Text) :=
  match longHasArgs (splitEq opt).1 long with
  | none => none
  | some (true, name) =>
    match (splitEq opt).2 with
    | some a => some (("--".toList ++ name, a), args)
    | none =>
      match args with
      | [] => none
      | a :: args => some (("--".toList ++ name, a), args)
  | some (false, name) =>
    match (splitEq opt).2 with
    | some _ => none
    | none => some (("--".toList ++ name, []), args)

/-- The loop of `getopt.getopt` of the Python standard library: the pairs found, in order; `none` is `GetoptError`. Every round takes at least
one argument, so that `fuel` never runs out when it is at least the number of arguments. -/
def getoptLoop (short : Text) (long : List Text) : ℕ → List Text → Option (List (Text × Text))
  | _, [] => some []
  | 0, _ :: _ => none
  | fuel + 1, a :: args =>
    if a.head? ≠ some '-' ∨ a = ['-'] then some []
    else if a = ['-', '-'] then some []
    else if ['-', '-'].isPrefixOf a then
      match doLongs long (a.drop 2) args with
      | none => none
      | some (o, args) =>
        match getoptLoop short long fuel args with
        | none => none
        | some opts => some (o :: opts)
    else
      match doShorts short (a.drop 1) args with
      | none => none
      | some (os, args) =>
        match getoptLoop short long fuel args with
        | none => none
        | some opts => some (os ++ opts)

/-- `getopt.getopt` (called in `dtree_experiment.py:74`). The remaining arguments are dropped, `main` does not use them. -/
def getopt (short : Text) (long : List Text) (argv : List Text) : Option (List (Text × Text)) := getoptLoop short long argv.length argv

/-! ## `int` and `str` -/

/-- `str.isspace` for ASCII characters. -/
def isSpace (c : Char) : Bool := decide (c = ' ') || decide (9 ≤ c.toNat ∧ c.toNat ≤ 13) || decide (28 ≤ c.toNat ∧ c.toNat ≤ 31)

/-- An ASCII digit. -/
def isDigit (c : Char) : Bool := decide (48 ≤ c.toNat ∧ c.toNat ≤ 57)

/-- The value of an ASCII digit. -/
def digitVal (c : Char) : ℕ := c.toNat - 48

/-- The digits after the first one; a single underscore may stand between two digits. -/
def intLoop : ℕ → Text → Option ℕ
  | acc, [] => some acc
  | acc, [c] => if isDigit c then some (acc * 10 + digitVal c) else none
  | acc, c :: c' :: rest =>
    if isDigit c then intLoop (acc * 10 + digitVal c) (c' :: rest)
    else if c = '_' ∧ isDigit c' then intLoop (acc * 10 + digitVal c') rest
    else none

/-- The digits of an integer literal. -/
def natOf : Text → Option ℕ
  | [] => none
  | c :: rest => if isDigit c then intLoop (digitVal c) rest else none

/-- Text without leading and trailing white space. -/
def strip (t : Text) : Text := ((t.dropWhile isSpace).reverse.dropWhile isSpace).reverse

/-- Python's `int(text)` for ASCII text; `none` is `ValueError`. The limit of newer versions on the number of digits is left out. -/
def pyInt (t : Text) : Option ℤ :=
  match strip t with
  | '-' :: rest => (natOf rest).map fun n : ℕ => -(n : ℤ)
  | '+' :: rest => (natOf rest).map fun n : ℕ => (n : ℤ)
  | t => (natOf t).map fun n : ℕ => (n : ℤ)

/-- `str(n)` for a natural number. -/
def natText (n : ℕ) : Text := if n = 0 then ['0'] else ((Nat.digits 10 n).map fun k => Char.ofNat (48 + k)).reverse

/-- `str(n)` for an integer. -/
def intText (n : ℤ) : Text := if n < 0 then '-' :: natText n.natAbs else natText n.natAbs

/-! ## The settings -/

/-- The local variables of `main` that the options set. -/
structure Settings where
  trainFile : Text
  testFile : Text
  depth : ℤ
  maxIterations : ℤ
  timeLimit : ℤ
  prepLimit : ℚ
  sep : Text
  /-- `none` is `None`: the file has no header. -/
  header : Option ℤ
  resultsDir : Text
  deriving DecidableEq

/-- The values before the options are read, `dtree_experiment.py:62-70`. -/
def defaults : Settings := ⟨[], [], 2, -1, 600, 200, [','], some 0, "results/".toList⟩

/-- How `main` ends without running an experiment. -/
inductive Stop where
  /-- `sys.exit(code)` -/
  | exit (code : ℕ)
  | raised (e : Err)
  deriving DecidableEq

/-- The body of the loop over the options, `dtree_experiment.py:86-110`. `time_limit / 3` is taken as an exact number. -/
def applyOption (s : Settings) (o : Text × Text) : Except Stop Settings :=
  let opt := o.1
  let arg := o.2
  if opt = "-h".toList then .error (.exit 0)
  else if opt = "-T".toList ∨ opt = "--train_file".toList then .ok { s with trainFile := arg }
  else if opt = "-t".toList ∨ opt = "--test_file".toList then .ok { s with testFile := arg }
  else if opt = "-S".toList ∨ opt = "--sep".toList then .ok { s with sep := arg }
  else if opt = "-H".toList ∨ opt = "--header".toList then
    match pyInt arg with
    | none => .error (.raised .valueError)
    | some n => .ok { s with header := if n < 0 then none else some n }
  else if opt = "-d".toList ∨ opt = "--depth".toList then
    match pyInt arg with
    | none => .error (.raised .valueError)
    | some n => .ok { s with depth := n }
  else if opt = "-i".toList ∨ opt = "--iterations".toList then
    match pyInt arg with
    | none => .error (.raised .valueError)
    | some n => .ok { s with maxIterations := n }
  else if opt = "-s".toList ∨ opt = "--time_limit".toList then
    match pyInt arg with
    | none => .error (.raised .valueError)
    | some n => .ok { s with
        timeLimit := n
        prepLimit := (n : ℚ) / 3 }
  else if opt = "-r".toList ∨ opt = "--results_dir".toList then .ok { s with resultsDir := "results/".toList ++ arg ++ ['/'] }
  else .ok s

/-- Lines 62-110 of `dtree_experiment.py`: the settings for the arguments `argv`. -/
def settings (argv : List Text) : Except Stop Settings :=
  match getopt shortOpts longOpts argv with
  | none => .error (.exit 2)
  | some opts => opts.foldlM applyOption defaults

/-! ## The result file -/

/-- `os.path.basename` on POSIX: the part after the last slash (`posixpath.py`). -/
def basename (p : Text) : Text := (p.reverse.takeWhile (· ≠ '/')).reverse

/-- `results_filename`, `dtree_experiment.py:359-363`. -/
def resultsFile (s : Settings) : Text :=
  s.resultsDir ++ "T_".toList ++ basename s.trainFile ++ "_d_".toList ++ intText s.depth ++ "_results.csv".toList

end Verif.Exp.Cmd
