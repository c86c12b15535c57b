import Verif.BDR.Fit

/-!
# The parameter protocol of scikit-learn on the three classifiers

`get_params`, `set_params` and `clone` are functions of scikit-learn (`sklearn/base.py`, version 0.24 and later), modelled from their
documentation and source; the constructors that they depend on are those of `/repo`. An attribute holds a reference to an object, and `is`
compares references: a `Ref` is an address together with the value found there. Parameters of estimators inside estimators (names with `__`) are
left out, no parameter of these classifiers is an estimator.
-/

namespace Verif.Params

/-- The values that occur as constructor arguments. `object` stands for any other object (lists of paths, the master problem, ...). -/
inductive Val where
  | none
  | bool (b : Bool)
  | int (z : ℤ)
  | num (q : ℚ)
  | text (s : String)
  /-- a list of lists of texts -/
  | texts (l : List (List String))
  | object (what : ℕ)
  deriving DecidableEq

/-- A reference. `a is b` is `a = b`. -/
structure Ref where
  addr : ℕ
  val : Val
  deriving DecidableEq

/-- The attributes of an object. -/
abbrev Attrs := String → Option Ref

/-- `setattr(self, name, value)`. -/
def setAttr (a : Attrs) (name : String) (r : Ref) : Attrs := Function.update a name (some r)

/-- `BaseEstimator.get_params`: `getattr(self, name)` for every parameter name of `__init__`. -/
def getParams (names : List String) (a : Attrs) : Except Err (List (String × Ref)) :=
  names.mapM fun n => match a n with
    | none => .error .attributeError
    | some r => .ok (n, r)

/-- The loop of `BaseEstimator.set_params`; an unknown name raises after the names before it have been set. -/
def setLoop (names : List String) : List (String × Ref) → Attrs → Except Err Unit × Attrs
  | [], a => (.ok (), a)
  | (n, r) :: rest, a => if n ∈ names then setLoop names rest (setAttr a n r) else (.error .valueError, a)

/-- `BaseEstimator.set_params(**params)`. -/
def setParams (names : List String) (params : List (String × Ref)) (a : Attrs) : Except Err Unit × Attrs :=
  if params = [] then (.ok (), a)
  else match getParams names a with
    | .error e => (.error e, a)
    | .ok _ => setLoop names params a

/-- What `clone` raises: an exception of `get_params` or the constructor, or its own. -/
inductive CloneErr where
  | raised (e : Err)
  | runtimeError
  deriving DecidableEq

/-- A class: the parameter names of its `__init__`, its `__init__` with all arguments given by name, the attributes of an object. -/
structure Cls (O : Type) where
  names : List String
  init : (String → Ref) → Except Err O
  attrs : O → Attrs

/-- The keyword arguments of the new object: copies of the parameters. -/
def copied (copy : Ref → Ref) (ps : List (String × Ref)) (n : String) : Ref := ((ps.lookup n).map copy).getD ⟨0, .none⟩

/-- `sklearn.base.clone`. `copy` makes the copy of a parameter (`copy.deepcopy`). The new object must hold the copies themselves. -/
def clone {O : Type} (K : Cls O) (copy : Ref → Ref) (o : O) : Except CloneErr O :=
  match getParams K.names (K.attrs o) with
  | .error e => .error (.raised e)
  | .ok ps =>
    match K.init (copied copy ps) with
    | .error e => .error (.raised e)
    | .ok new =>
      match getParams K.names (K.attrs new) with
      | .error e => .error (.raised e)
      | .ok qs => if K.names.all (fun n => decide (qs.lookup n = some (copied copy ps n))) then .ok new else .error .runtimeError

/-! ## The Boolean decision rule classifiers -/

open BDR

variable {Ω : Type}

/-- A number given as argument (documented types only). -/
def Val.toRat : Val → ℚ
  | .int z => z
  | .num q => q
  | _ => 0

/-- An integer given as argument (documented types only). -/
def Val.toInt : Val → ℤ
  | .int z => z
  | _ => 0

/-- A list of lists of texts (documented types only). -/
def Val.toTexts : Val → List (List String)
  | .texts l => l
  | _ => []

/-- The value of an attribute that exists. -/
def val (a : Attrs) (n : String) : Val := ((a n).map Ref.val).getD .none

/-- The parameters of both rule classifiers, `_bdr_classifier.py:647-654` and `820-827`. -/
def ruleNames : List String :=
  ["max_iterations", "C", "p", "rmp_solver_params", "rmp_solver", "master_ip_solver_params", "subproblem_solver", "subproblem_params"]

/-- A rule classifier: its attributes, the pricing problems and the objects behind `master_problem` and `subproblems`, the attributes that `fit`
sets. -/
structure Rule (Ω : Type) where
  attrs : Attrs
  kinds : List (List Kind)
  world : World Ω
  est : Fit.Est

/-- The pricing problems of the two classes, `_bdr_classifier.py:659-660` and `832-834`. -/
def kindsOf (heur : Bool) (C : ℚ) : List (List Kind) := if heur then heuristicKinds C else plainKinds C

/-- The attributes that `ColGenClassifier.__init__` sets, `_col_gen_classifier.py:316-323`, when called by the rule classifiers
(`_bdr_classifier.py:655-664`, `828-838`: `time_limit` keeps its default `-1`). -/
def baseAttrs (args : String → Ref) : Attrs := fun n =>
  if n = "max_iterations" then some (args n)
  else if n = "time_limit" then some ⟨0, .int (-1)⟩
  else if n = "master_problem" then some ⟨0, .object 0⟩
  else if n = "subproblems" then some ⟨0, .object 1⟩
  else if n = "rmp_is_ip" then some ⟨0, .bool true⟩
  else if n = "rmp_solver_params" ∨ n = "master_ip_solver_params" ∨ n = "subproblem_params" then some (args n)
  else none

/-- The attributes of a new rule classifier, `_bdr_classifier.py:665-670` and `839-844`. -/
def ruleAttrs (args : String → Ref) : Attrs := fun n =>
  if n = "C" ∨ n = "p" ∨ n = "rmp_solver" ∨ n = "subproblem_solver" then some (args n) else baseAttrs args n

/-- `__init__` of the two rule classifiers, `_bdr_classifier.py:647-670` and `820-844`, with the assertions of
`_col_gen_classifier.py:324-326`. `ω` is the state of the solvers, `e0` stands for attributes that do not exist before `fit`. -/
def Rule.new (heur : Bool) (ω : Ω) (e0 : Fit.Est) (args : String → Ref) : Except Err (Rule Ω) :=
  let C := (args "C").val.toRat
  let kinds := kindsOf heur C
  if (args "subproblem_params").val.toTexts.map List.length = kinds.map List.length then
    .ok ⟨ruleAttrs args, kinds, World.init C (args "p").val.toRat kinds ω, e0⟩
  else .error .assertionError

/-- The class. -/
def ruleCls (heur : Bool) (ω : Ω) (e0 : Fit.Est) : Cls (Rule Ω) := ⟨ruleNames, Rule.new heur ω e0, Rule.attrs⟩

/-- The plug-ins with the access `self.subproblem_params[sp_level][sp_ind]`, `_col_gen_classifier.py:415-418`. The parameters themselves have no
influence: `get_params_from_string` (`_bdr_classifier.py:95-105`) returns default parameters whatever its argument is. -/
def ruleEnv (o : Oracle Ω) (X : Data) (kinds : List (List Kind)) (params : List (List String)) : Fit.Env (World Ω) (ℚ × List ℚ) Clause :=
  { env o X kinds with
    generate := fun l i d w =>
      match (params[l]?).bind (fun row => row[i]?) with
      | none => (.error .indexError, w)
      | some _ => generateAt o X kinds l i d w }

/-- `fit`: `max_iterations`, `time_limit` and `subproblem_params` are read from the attributes, `C` and `p` were given to the master problem and
the pricing problem in the constructor. -/
def Rule.fit (o : Oracle Ω) (X : Data) (fuel : ℕ) (y : List ℤ) (r : Rule Ω) : Option (Except Err Unit × Rule Ω) :=
  match Fit.fit (ruleEnv o X r.kinds (val r.attrs "subproblem_params").toTexts)
      (config r.kinds (val r.attrs "max_iterations").toInt (val r.attrs "time_limit").toRat) fuel y r.est r.world with
  | none => none
  | some (res, s) => some (res, { r with
      world := s.world
      est := s.est })

/-- `set_params` of a rule classifier. -/
def Rule.set (params : List (String × Ref)) (r : Rule Ω) : Except Err Unit × Rule Ω :=
  ((setParams ruleNames params r.attrs).1, { r with attrs := (setParams ruleNames params r.attrs).2 })

/-- `predict` of a rule classifier. -/
def Rule.predict (r : Rule Ω) (X : List (List ℚ)) : Except Err (List ℤ) := BDR.predict r.est.classes r.world.master.explanation X

/-- A call of the user: `set_params` or `fit`. -/
inductive Call (Ω : Type) where
  | set (params : List (String × Ref))
  | fit (o : Oracle Ω) (X : Data) (fuel : ℕ) (y : List ℤ)

/-- The object after a call, whether it raised or not. A `fit` that does not end changes nothing (there is no object after it). -/
def Rule.step (r : Rule Ω) : Call Ω → Rule Ω
  | .set params => (r.set params).2
  | .fit o X fuel y => match r.fit o X fuel y with
    | none => r
    | some (_, r') => r'

/-! ## The tree classifier -/

/-- The parameters, `_dtree_classifier.py:2417-2429`. -/
def treeNames : List String :=
  ["initial_paths", "leaves", "nodes", "splits", "tree_depth", "targets", "max_iterations", "time_limit", "num_master_cuts_round",
    "master_beta_constraints_as_cuts", "master_generate_cuts", "data_rows", "use_old_sp", "master_solver_type", "rmp_solver_params",
    "master_ip_solver_params", "subproblem_params"]

/-- The attributes of a new tree classifier, `_dtree_classifier.py:2431-2441` and `2508-2512` with `_col_gen_classifier.py:316-323`. The list
`all_subproblem_params` replaces `subproblem_params`; `fresh` is its address. -/
def treeAttrs (fresh : ℕ) (args : String → Ref) : Attrs := fun n =>
  if n = "initial_paths" ∨ n = "leaves" ∨ n = "nodes" ∨ n = "splits" ∨ n = "tree_depth" ∨ n = "targets" ∨ n = "num_master_cuts_round" ∨
      n = "master_beta_constraints_as_cuts" ∨ n = "master_generate_cuts" ∨ n = "data_rows" then some (args n)
  else if n = "subproblem_params" then some ⟨fresh, .object 2⟩
  else if n = "max_iterations" ∨ n = "time_limit" ∨ n = "rmp_solver_params" ∨ n = "master_ip_solver_params" then some (args n)
  else if n = "master_problem" then some ⟨0, .object 0⟩
  else if n = "subproblems" then some ⟨0, .object 1⟩
  else if n = "rmp_is_ip" then some ⟨0, .bool true⟩
  else none

/-- `DTreeClassifier.__init__`, `_dtree_classifier.py:2417-2512`, as far as attributes are concerned. `checks` are its assertions
(`Verif.DTree.initChecks`). -/
def treeInit (checks : (String → Ref) → Except Err Unit) (fresh : ℕ) (args : String → Ref) : Except Err Attrs :=
  match checks args with
  | .error e => .error e
  | .ok _ => .ok (treeAttrs fresh args)

/-- The class; `fit` sets no attribute that is a parameter. -/
def treeCls (checks : (String → Ref) → Except Err Unit) (fresh : ℕ) : Cls Attrs := ⟨treeNames, treeInit checks fresh, id⟩

end Verif.Params
