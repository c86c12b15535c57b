import Verif.Exp.Options
import Verif.Exp.Report
import Verif.Exp.CartCompare

/-!
# Model of `main` of `examples/dtree_experiment.py`

The program as a whole: options, tables, labels, preparation, `DTreeClassifier.fit` and the result file. The cells of the tables are numbers (text
in the label column may be replaced by numbers in the same order). What comes from outside is collected in `Outside`: the tables read by
pandas, the trees fitted by scikit-learn, clock readings and the solvers. Not modelled: printing, the format of the result file.
-/

namespace Verif.Exp

open Verif.DTree Verif.Exp.Cmd

/-! ## Tables -/

/-- A `pandas.DataFrame` of numbers; `N` is the type of column names. -/
structure Table (N : Type) where
  columns : List N
  rows : List (List ℚ)

variable {N : Type} [DecidableEq N] {Ω : Type}

/-- The cell of a row in the column with the given name. -/
def cell (columns : List N) (row : List ℚ) (name : N) : ℚ := row.getD (columns.idxOf name) 0

/-- `df[names]`: the columns with the given names in this order. -/
def Table.select (t : Table N) (names : List N) : Except Err (List (List ℚ)) :=
  if ∀ n ∈ names, n ∈ t.columns then .ok (t.rows.map fun row => names.map (cell t.columns row)) else .error .keyError

/-- `df.iloc[:, -1]`: the last column. -/
def Table.lastColumn (t : Table N) : Except Err (List ℚ) :=
  if t.columns = [] then .error .indexError else .ok (t.rows.map fun row => row.getD (t.columns.length - 1) 0)

/-! ## Labels -/

/-- `LabelEncoder.fit(y).classes_` for numbers. -/
def classesOf (y : List ℚ) : List ℚ := y.dedup.insertionSort (· ≤ ·)

/-- `LabelEncoder.transform(y)`: the positions among the classes; an unknown label raises `ValueError`. -/
def encodeLabels (classes y : List ℚ) : Except Err (List ℤ) :=
  if ∀ v ∈ y, v ∈ classes then .ok (y.map fun v => (classes.idxOf v : ℤ)) else .error .valueError

/-- The data of an experiment. -/
structure Data where
  XTrain : List (List ℚ)
  yTrain : List ℤ
  XTest : List (List ℚ)
  yTest : List ℤ
  classes : List ℚ

/-- Lines 117-126 of `dtree_experiment.py`: features and encoded labels of both tables. -/
def makeData (train test : Table N) : Except Err Data :=
  match train.select train.columns.dropLast with
  | .error e => .error e
  | .ok XTrain =>
    match train.lastColumn with
    | .error e => .error e
    | .ok yTrain =>
      match test.select train.columns.dropLast with
      | .error e => .error e
      | .ok XTest =>
        match test.lastColumn with
        | .error e => .error e
        | .ok yTest =>
          match encodeLabels (classesOf yTrain) yTrain with
          | .error e => .error e
          | .ok yTrain' =>
            match encodeLabels (classesOf yTrain) yTest with
            | .error e => .error e
            | .ok yTest' => .ok ⟨XTrain, yTrain', XTest, yTest', classesOf yTrain⟩

/-! ## What comes from outside -/

/-- The world around an experiment. Clock readings are differences to the start of the preparation (line 135). -/
structure Outside (N Ω : Type) where
  /-- `pd.read_csv(file, sep=sep, header=header)` -/
  read : Text → Text → Option ℤ → Except Err (Table N)
  /-- the tree fitted to a sample of the training data in round `i` of the first loop (lines 152-156) -/
  cart : ℕ → ℤ → Data → Except Err Cart
  /-- the tree fitted to all training data (line 178) and the labels of its leaves -/
  cartAll : ℤ → Data → Except Err (Cart × (ℕ → ℤ))
  /-- the tree of round `i` of the second loop (lines 240-244) -/
  cartMore : ℕ → ℤ → Data → Except Err Cart
  /-- readings at the tests in the first loop (line 150) -/
  check : ℕ → ℚ
  /-- readings at the tests in the second loop (line 238) -/
  checkMore : ℕ → ℚ
  /-- reading at line 284 -/
  late : ℚ
  /-- reading at line 289 -/
  call : ℚ
  /-- readings within `preprocess`, from its start -/
  elapsed : ℕ → ℚ
  /-- `preprocessing_time`, line 291 -/
  total : ℚ
  solvers : FitOracle Ω
  ω : Ω
  /-- the attributes of the estimator before `fit` -/
  est : Fit.Est

/-- The number of rounds of a loop `for i in range(n)` that is left when `limit > 0 and time() - t0 > limit`, lines 149-151 and 235-239. -/
def rounds (limit : ℚ) (check : ℕ → ℚ) (n : ℕ) : ℕ := ((List.range n).takeWhile fun i => !timeOver limit check i).length

/-- `use_aggressive_mode`, `dtree_experiment.py:131-133, 283-285`. -/
def aggressiveMode (limit late : ℚ) (n : ℕ) : Bool := decide (5000 ≤ n) && !(decide (limit > 0) && decide (late > limit))

/-- What the first half of `main` hands over. -/
structure Ready where
  data : Data
  prepared : Prepared
  cart : Cart
  label : ℕ → ℤ

/-- Lines 138-289 of `dtree_experiment.py`. The trees are fitted before they are merged here: if several of these steps raise, the exception may
be that of another step. `2 ** depth - 1` is a float for a negative depth, which `range` refuses. -/
def makeReady (w : Outside N Ω) (s : Settings) (data : Data) : Except Err Ready :=
  if s.depth < 0 then .error .typeError
  else if s.depth = 0 then .error .zeroDivisionError
  else
    match (List.range (rounds s.prepLimit w.check 300)).mapM fun i => w.cart i s.depth data with
    | .error e => .error e
    | .ok carts =>
      match w.cartAll s.depth data with
      | .error e => .error e
      | .ok (final, label) =>
        match (List.range (rounds s.prepLimit w.checkMore 100)).mapM fun i => w.cartMore i s.depth data with
        | .error e => .error e
        | .ok extra =>
          match prepare s.depth.toNat carts final extra data.XTrain data.yTrain (aggressiveMode s.prepLimit w.late data.XTrain.length)
              (s.prepLimit - w.call) w.elapsed with
          | .error e => .error e
          | .ok P => .ok ⟨data, P, final, label⟩

/-- `time_limit` as passed to `DTreeClassifier`, `dtree_experiment.py:293, 304`. -/
def fitLimit (s : Settings) (total : ℚ) : ℚ := (s.timeLimit : ℚ) - total

/-- The fit, `dtree_experiment.py:296-309`; `use_old_sp` is `False` (line 129). -/
def runFit (w : Outside N Ω) (s : Settings) (r : Ready) (fuel : ℕ) : Option (Except Err Unit × Fit.St (World Ω) Duals Path) :=
  fitNew w.solvers (r.prepared.args s.depth.toNat false) s.maxIterations (fitLimit s w.total) r.data.XTrain fuel r.data.yTrain w.est w.ω

/-- What is written. -/
structure Written where
  file : Text
  cartTrain : ℚ
  cartTest : ℚ
  preprocessingTime : ℚ
  results : Results

/-- The result file, `dtree_experiment.py:179-190, 311-371`. -/
def writeResults (w : Outside N Ω) (s : Settings) (r : Ready) (st : Fit.St (World Ω) Duals Path) : Except Err Written :=
  match report (r.prepared.args s.depth.toNat false) st r.data.XTrain r.data.yTrain r.data.XTest r.data.yTest with
  | .error e => .error e
  | .ok R => .ok ⟨resultsFile s, score r.data.yTrain (r.cart.predict r.label r.data.XTrain),
      score r.data.yTest (r.cart.predict r.label r.data.XTest), w.total, R⟩

/-- Reading of the files and preparation, `dtree_experiment.py:112-289`. -/
def readAndPrepare (w : Outside N Ω) (s : Settings) : Except Err Ready :=
  match w.read s.trainFile s.sep s.header with
  | .error e => .error e
  | .ok train =>
    match w.read s.testFile s.sep s.header with
    | .error e => .error e
    | .ok test =>
      match makeData train test with
      | .error e => .error e
      | .ok data => makeReady w s data

/-- `main`, `dtree_experiment.py:59-371`; `none` if `fit` needs more than `fuel` iterations. -/
def main (w : Outside N Ω) (argv : List Text) (fuel : ℕ) : Option (Except Stop Written) :=
  match settings argv with
  | .error e => some (.error e)
  | .ok s =>
    match readAndPrepare w s with
    | .error e => some (.error (.raised e))
    | .ok r =>
      match runFit w s r fuel with
      | none => none
      | some (.error e, _) => some (.error (.raised e))
      | some (.ok _, st) =>
        match writeResults w s r st with
        | .error e => some (.error (.raised e))
        | .ok out => some (.ok out)

end Verif.Exp
