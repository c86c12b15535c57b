# Design of the formal model of krooonal/col_gen_estimator

Everything is Lean 4 (4.33.0) in `/verif/lean/Verif`. The code in `/repo` is read as text; it is never run here.

## 1. Layout

| Lean folder | models | contents |
|---|---|---|
| `Verif/Py.lean`, `Verif/Sk.lean` | Python exceptions, list access, `LabelEncoder` | `Err`, `unique_labels`, `transform`, `inverse_transform` |
| `Verif/MP.lean`, `Verif/MPAbs.lean` | OR-Tools `MPSolver` and CP-SAT model objects | variables, constraints, objective, feasibility, solver answers and their contracts |
| `Verif/Check.lean` | scikit-learn's `check_X_y`, `check_array`, `unique_labels` for lists of numbers | C136 |
| `Verif/Noise.lean` | no code | answers that are close to exact ones (C101) |
| `Verif/LP/*` | no code | exact linear and integer programming over `ℚ`: strong duality, existence of optimal answers. Used to show that the solver contracts assumed elsewhere can be met |
| `Verif/Tuner/*` | `_parameter_tuner.py`, `BaseSubproblem.solve_model`, `get_tunable_params` | C13-C19, C85, C109, C148 |
| `Verif/Fl.lean` | no code | binary floating point numbers, roundings, IEEE round to nearest even (C109, C119-C121) |
| `Verif/FlNearest.lean` | no code | rounding to nearest, single and double precision (C116) |
| `Verif/Fit/*` | `_col_gen_classifier.py` (`ColGenClassifier`) | C01-C12, C63-C65, C82, C83, C86, C114, C123, C124, C135, C137, C138, C141, C143, C146, C151, C152, C155 |
| `Verif/BDR/*` | `_bdr_classifier.py` | C20-C35, C66, C67, C84, C87, C93, C94, C101-C103, C107, C112, C114, C120, C123, C124, C129-C131, C133, C136, C139, C140, C144, C145, C153, C154 |
| `Verif/DTree/*` | `_dtree_classifier.py` | C36-C57, C68-C74, C80, C81, C88, C89, C92, C95, C101, C104, C105, C108, C110, C111, C113-C115, C118-C121, C123-C130, C132, C134, C136, C142, C145, C147, C150 |
| `Verif/Params/*` | constructors as scikit-learn estimators | C106 |
| `Verif/Exp/*` | `examples/dtree_experiment.py`: command line, tables, preparation, the call of `fit`, result report, the result file, and `main` as a whole | C45, C58-C62, C75-C79, C90, C91, C96-C100, C116, C117, C122, C142, C149 |
| `Verif/Tests/*` | the unit tests of `/repo` | each test replayed on the model (section 4) |

In each folder the code is modelled function by function in `Model.lean` (in `DTree`: `Model`, `Master`, `Sub`, `Heur`, `Fit`; in `Exp`:
`Pipeline`, `Preprocess`); each definition cites file and lines. `*Spec.lean` files hold small specifications that do not mention the
model's helpers, `*Lemmas.lean`, `*Inv.lean` the proof machinery, `*Props.lean` the property theorems with their non-vacuity
examples, `*Demo.lean`, `*Examples.lean` complete runs of the model and the counterexamples.

## 2. Modelling decisions

* Python floats and ints that enter arithmetic are exact rationals `ℚ` (or `ℕ`/`ℤ` where the code only uses integers). Rounding,
  overflow, NaN and infinities of IEEE floats are not modelled. `math.sqrt` is a parameter (any function with the stated contract) and is
  instantiated with the real square root where the statement is about it.
* `math.floor((c-1)/2)` is natural number division; the code divides floats, which is the same up to depth 52 and not beyond (C150, `Verif/DTree/FloatLeaf.lean`).
* Python exceptions are values of `Err`; a function that can raise returns `Except Err _`. Where the state after an exception matters it is
  returned with the error.
* The solvers (GLOP, CBC, SAT, CP-SAT) are arbitrary functions / arbitrary answers. Theorems that need a correct solver say
  so through an explicit contract on the answer (feasible, optimal, dual feasible).
* The clock is an arbitrary sequence of readings, the random generator an arbitrary sequence of draws.
* `while True` loops are step functions iterated with fuel; "terminates" means that some fuel suffices.
* `sklearn` validation (`check_X_y`, `check_array`, `check_is_fitted`) is modelled for lists of lists of numbers in `Verif/Check.lean` (C136, after the documentation of scikit-learn); elsewhere only the shape facts it guarantees are used (in C124 it is an arbitrary function that returns data or raises);
  `LabelEncoder` is modelled (sorted distinct labels, index, inverse with ValueError on unseen codes).
* `print` is not modelled.

## 3. Plan per property

Fit loop (C01-C12, C63-C65): `fit` is modelled over an arbitrary environment (one world type for master, subproblems and clock, with arbitrary
functions for every call). Every call is recorded in a trace. Loop invariants are proved by induction over the
subproblem lists and over the iterations; the properties are stated on the trace and the returned attributes.
C11 is false of the code (`performed_iter_` is never incremented): negation by witness plus `_partial`.

Tuner (C13-C19): state machines over op lists; invariant `state = f(history)` by induction. Generic ordered field for the scores.
C85: a worse value with `max 4 n` scores fails the test of C17 (the sample variance of values in an interval is at most its squared length); then induction over
the rounds with the number of scores it still lacks.

Tuner in floating point (C109): `Verif/Tuner/RoundModel.lean` repeats the model over `ℚ` with a function `rnd` applied after every operation; for `rnd = id` it is
the exact model (`C109_exact`). The theorems hold for any monotone rounding onto the floating point numbers with at least three bits (`Fl.Rounding`);
`Fl.binary64` is the one of IEEE 754 without overflow. The central fact: the step of the mean stays between the old mean and the new value, which gives
the non-negative variance and the error bound. `x ** 2`, `sqrt` and conversion of integers are assumed to be rounded like the other operations (`sqrt` is any function that is
not negative on non-negative numbers). The gap score leaves `[0, 1]` when the product underflows (`C109_gap_underflow`).

Tree pricing in floating point (C119): `Verif/DTree/FloatPrice.lean` repeats `scale_obj_coeff`, `path_cost` and `original_objective` with a rounding
after every operation, in the order of the code. Weights are Python integers, so the costs are exact up to `2^53`; products with 0/1 values are exact; the error comes
from the sum and from the product with 100000. For `rnd = id` it is the exact model (`C119_exact`).

Pricing heuristics in floating point (C120): `Verif/BDR/FloatHeur.lean` and `Verif/DTree/FloatHeur.lean` repeat the reduced cost loops with a rounding after
every operation. Because rounded sums depend on the order, the order in which Python lists the set of satisfied cuts is an argument. Counts of rows and
weights are Python integers and stay exact.

Cut generation in floating point (C121): `Verif/DTree/FloatCut.lean` repeats the scaled objective, the sum and threshold of `CutGenerator` and
`violated_row_constraint` with a rounding after every operation; `FloatRounds.lean` does the cut rounds, with an LP solver that satisfies the constraints up to a
tolerance `δ`. The order in which the set of paths of a row is listed is an argument. The invariant of the master (`Inv`) does not depend on the tests, so the
lemmas about `storeCuts` and `storeBeta` serve both models. For `rnd = id` they are the exact functions (`C121_exact`).

BDR (C20-C35): model of the LP/MIP building code on `MP`; invariant over histories of `add_column`; LP duality lemmas over finite sums.
C32 by a counting argument over sublists of `range n` plus C07. C34 is false of the code: `generate_mp` returns early when already
generated; negation by witness plus `_partial`. C35 is false for more than two classes: negation by witness plus `_partial` for binary labels; C112
shows what becomes of `fit` and `predict` then (`fit` accepts such labels and can raise `AssertionError` although all solvers are exact).
C84: every rule is a feasible point of the program whose objective is the Hamming loss, so C31 bounds that loss; for the training loss the claim is false (section 5).

C102: the invariant of C30 extended by the clause sizes; any feasible point of the other run is moved to the certified data set through the zero / non-zero views of the
labelled rows (a permutation), with the smallest slacks, and C31 bounds its value.

DTree (C36-C57): heap numbering arithmetic; routing lemma (exactly one leaf) by induction on depth; master model invariants over
histories; polyhedral arguments for C41-C43; C45 by a loop invariant of the quadratic loop; C46-C48 from the pricing constraints.
C51 is false of the code (target -1 for leaves without training rows): negation by witness plus `_partial`. C55 is false
of the code (`abs(sum-1) > 1e-6` also triggers for sums below 1): negation by witness plus `_partial`.

Missing solvers (C123): `CreateSolver` returns `None` for a name it does not know and the constructors do not look at it. `BDR/SolverProps.lean` and
`DTree/SolverProps.lean` have the plug-ins with `None` in place of one solver. `Fit/Degraded.lean` proves that plug-ins which do the same or raise make `fit` do
the same or raise. Trusted: that the first method call on `None` raises `AttributeError`. Not modelled: what a failed `generate_mp` of the tree leaves in the model for the cuts (no call reads it, since no later call gets further).

Histories (C124): `Fit/Life.lean` adds the validation of the input, as an arbitrary function that returns data or raises, and the sequences of calls of `fit`. Its
theorem holds for plug-ins that change what `predict` reads in `solve_ip` only; `BDR/LifeProps.lean` and `DTree/LifeProps.lean` prove this of the two master problems
(accesses are not checked there; in the checked tree model a path id without variable would raise in the middle of the loop of `solve_ip`).

Objects (C125): `DTree/Heap.lean` is the tree classifier on a heap: paths, splits, nodes and rows live under addresses, the lists of the classifier hold addresses,
and each attribute write of `fit` is a write to the heap in the loop order of the code. The value model is related to it by a simulation (`Fit.Twins`) under the
hypothesis that the caller passes distinct objects; the frame and the independence of predictions need no such hypothesis. The number of an object is its address;
new paths and rows get the next one. Sharing is not harmless: one path object at two positions of `initial_paths` makes the master problem unbounded. C126 follows the mark `children_are_leaves`, which is
set and never cleared, from one tree to the next: it is the hypothesis `hleaf` of C43 and C44. Without it the relaxation loses row constraints that are not redundant
(`StaleDemo.lean`); the selected paths still form a tree and the bounds still hold, since C41 and C72-C74 do not use the hypothesis.

C127 bounds the numbers of the two CP-SAT models. It covers coefficients, bounds and their absolute sums; the float constant `- leaf_dual` of the pricing
objective, which CP-SAT keeps apart, is outside. That CP-SAT rejects a model outside the range is not part of the model; the claim is about what the code passes to it.
Since optimal duals are not bounded (a shift between two leaf duals and the duals of the split constraints keeps them optimal), the range is conditional on the duals.

C128 counts LP solves, cut generation runs and `solve_rmp` calls. `beta_constraints_as_cuts` is not among the arguments without influence: `generate_mp`
reads it too.

C129 is about `predict` on sparse matrices; all other properties are about dense arrays. `BDR/Sparse.lean` gives the meaning of indexing, comparing and
testing a row of a SciPy `csr_matrix` (`sparseIf`), which is trusted from the SciPy documentation; `csr_array` and the formats without indexing are not
modelled.

C130 complements C86 with renamings that change the order of the labels: for certified trees it follows from C108 with relabelled leaves, for rules
it fails (`C130_rule_swap_refuted`) and `C130_rule_exists` says exactly which labelled rows a rule can describe.

C131 draws from the optimality of the Hamming loss (C93) what it says about the training loss, although the two differ: among the subsets of the trained clauses the
trained rule is best for both. C132 is the counterpart of C93 for trees, and extends C73 from the initial trees to all trees of collected paths. C133 extends C102 from
reordered data to data sets of different size (`Spec.Within` counts each labelled row) and to other penalties. C134 does the same for trees,
where the certified value is a number of training rows with the right answer.
C139 (separable data): the rule with one clause per positive row bounds the LP value by `1e-6 * C`; a point of the LP with so small a value must put weight on a clause that
covers the given positive row and no negative row (`good_clause`); one such clause per row is a rule made of collected clauses, so the integer program has value 0.

C140 (distance from the best rule): for every positive row, either `p` or the price of one of the collected clauses that cover it is at most the whole value of the linear program (`cheap_clause`); one such clause per row is a rule the final integer program may choose. The factor is the number of positive rows and is not claimed to be the best possible one; nothing is claimed for smaller `C`, where that rule may be too complex (the `_partial` of C84 says what is known there).

Merging of rows by the master problem (C122): no caller in the repository passes `aggressive=True` to `preprocess_rows`, but it is a public method. The proof is in
`Verif/Exp/AggressiveProps.lean` because it uses the lemmas about the experiment's version and compares the two.

Experiment helpers (C58-C62, C75-C79): folds over dictionaries as association lists. C62 is false for depth >= 7 (`int(100/127) = 0`).
The whole preparation is one function `Exp.prepare`; the relation `PrepRun` records its intermediate results. C78 (initial paths use candidate
splits) is false: `get_path_for_leaf` takes splits of a further tree without asking whether `reduce_splits` kept them.

Cut search (C88, C89): a row is a feasible point of the cut generation model (C52), so the optimal scaled objective bounds its path sum up to the
rounding of one unit per path and the threshold of the callback. Each round with a cut or a row constraint adds a pattern or a row that was not
there, since the solution satisfies the old ones; there are at most 2^(splits) + rows of them.

Result report (C90): `Exp.report` reads the counters off the final state. `DTree.Tally` ties the counters of the master problem and the
heuristic to the trace (invariant of `fit`, no assumption on solvers); `Fit.balance` shows from the protocol that each returned column is offered
exactly once.

Comparison with CART (C91): `Cart.predict` walks the arrays of the fitted tree with exact comparisons (scikit-learn rounds the data to 32 bit
first; see C116). Every inner node of the final tree keeps its split in the initial tree, so the initial tree
refines its partition, and its leaves have most frequent labels. The counterexample of C78 also shows that the classifier can be worse than
the CART tree if further trees bring in splits that are not candidates of their nodes.

Single precision (C116): `Cart.predictSingle` rounds the features to single precision before it walks the tree, as `predict` and `score` of
`DecisionTreeClassifier` do. `FittedTo` states what is assumed about the thresholds that scikit-learn computes: the midpoint of two converted values, rounded
to a double, with no converted value of the rows at the node between the two. Everything else about the fitting of CART trees stays arbitrary. The
rounding to single precision is any rounding to a nearest number. There is no largest exponent: scikit-learn rejects data that overflow.

Certified experiments (C117): C79_bound is a bound for the number of right labels over all training rows, because the weights of the kept rows are the numbers of
rows that follow a path (C45). `run_preds` says that the selected paths are worth at most the number of right labels. Both are whole numbers, so a gap below 1 closes.

Refitting (C92): `Session` is the set of states of a classifier that is constructed and fitted any number of times on the same data. The invariant
of a run starts either in the constructed state or in the state left by a run; the latter holds because every round updates all pricing problems
before the clock is read, so no cut row is missing when a run ends. Training hits (as opposed to costs) may fall only if a path of the earlier
tree has a cost below its hits, which suboptimal solutions of the pricing problem allow.

The rule of a run (C93) and refitting of the rule classifier (C94): the integer master minimises the Hamming loss over the clauses it contains, and
`best_from` turns this into a statement about the rule that is read from it. The invariant of a run only speaks of the history of calls to the
master and pricing objects, so the state left by any run (also one that raised) is a start state of the next. Monotonicity is claimed for the
Hamming loss only: in it a negative row counts once for every clause it satisfies, so it does not order rules by training errors.

Two runs side by side (C83, C86, C95, C103): `Verif/Fit/Simulation.lean` relates runs that may differ in measured times (without time limit),
`Verif/Fit/Bisim.lean` runs that agree in everything but the objects (`Twins`). C95 instantiates it with worlds that differ in the features and
thresholds of the splits only. Reading a row or a split outside its list yields a default value in the model and raises in Python, so C95 asks for
known splits (`KnownSplits`).

Failing accesses (C104): the models of the plug-ins read a default value where Python raises. `DTree/Strict.lean` has the same plug-ins with every list,
dictionary and `None` access checked first (also those that Python may skip), and C104 shows that for `DTreeClassifier` this makes no difference: the run with checks is the
run without. `BDR/Strict.lean` and C107 do the same for the rule classifiers, with the reads of `satisfies_clause` in the order of Python (it stops at the first zero). `DTree/Narrow.lean` has the exact reads of `DTreeClassifier.predict` (C118). `Fit/Prog.lean` writes `fit` as an interaction tree; from it `fit_congr`: plug-ins that agree wherever an invariant of a run holds have the same runs.

Certified runs (C108): `Spec.Questions` is a decision tree written as features, thresholds and labels, without split numbers. `C108_bound` compares
`rmp_objective_` with all of them, `C108_beats_other_runs` with every other fitted classifier. The hypothesis that the selected paths are worth
nearly as much as the relaxation can be checked after a run; it is not claimed that it always holds (the integer program is solved over the generated paths only).

No tree (C110): `DTreeClassifier()` is accepted, but `preprocess_rows` computes `math.log2(0)`; `generateMpS` has this check among the failing accesses
(`dataReads`), so the theorem is about `fitNewS`.

Three classes (C112): `Fit/Rounds.lean` follows rounds in which the duals and the priced column are known. `ExactSolvers` says that a program with
an optimum gets one as answer (for an LP with optimal duals); the optimal duals of the two masters of the run are unique, so every exact solver
leads to the same run.

Initial paths (C111): `Fit/Stuck.lean` is about plug-ins that cannot do anything with what `solve_rmp` returns for an unsolved LP. The instance uses the
strict plug-ins: with empty lists of duals the heuristic raises or returns nothing, `DTreeSubProblemSat.generate_columns` and
`DTreeSubProblemOld.update_subproblem` raise. The claim does not say which exception is raised.

Used objects (C105): `Args.after` is what the caller finds in its arguments after `fit`: the master problem keeps references, so the list of paths has
grown, splits carry cuts and data rows carry path ids. `DTree/ReuseProps.lean` shows when a second classifier may be made of them, `ReuseDemo.lean` what happens otherwise
(`KeyError`, `IndexError`, or silently a constraint that excludes the best tree). That the objects are shared while both classifiers live is not modelled.
`DTree/RowsProps.lean` relates two runs whose data rows differ in the recorded paths only (`Fit.Twins`): without `master_beta_constraints_as_cuts` they are the same run.

Two live classifiers (C113): `World.sees` is what the one finds in its objects after the other was trained. It is a view, not a heap: the two classifiers have the
same list of paths and the same splits, so the list and the splits of the one replace those of the other, and the selected paths, which are members of the list, are
read again at their positions. `Turns` allows every order of calls. `C113_refit_refuted` is the negative part.

Limits (C114): `Fit/LimitLemmas.lean` compares two runs of the loop from one state whose limits differ: as long as neither limit stops it, the tighter run makes the same
calls. Time is read from one clock, so both runs see the same readings up to the point where one stops. The consequences for rules and trees combine this with the
optimality of the final integer program over a longer list of columns. `BDR/LimitDemo.lean` has the negative part (`C114_rule_errors_refuted`), with solvers that are exact on
every program and computable on those of the run (`BDR/GuidedDemo.lean`).

Other data (C115): `DTree/OtherData.lean` has the plug-ins of a `fit` on features `X` of an object whose master problem was generated from `X0` (`envOn`). Where all models
exist they do not depend on `X` except for the number of rows, so that runs for different `X` agree (`Fit.fit_congr`). A run that ends with `mp_optimal_` has asked every
pricing problem (C03), hence all models exist. Feature matrices with another number of rows are left out: the code then mixes old and new row numbers, and whether it raises
depends on the solver library.

The program (C96-C100): `Exp/Options.lean` models the part of Python's `getopt` and `int` that `main` uses, `Exp/Main.lean` composes options, tables, labels,
preparation, `fit` and report to `main`. Tables, fitted trees, clock readings and solvers are arguments (`Outside`). The theorems about the command line
start from a list of requests (`Spec.Req`) in any accepted style.

Parameters (C106): `Params/Model.lean` models an object as its attributes (with the identity of the values, which `clone` compares) and `get_params`,
`set_params` and `clone` of scikit-learn from their documentation and source (0.24 and later; the trusted part is their text, which is not in /repo). The rule
classifiers pass the protocol except that the models built by the constructor keep its `C` and `p`; the tree classifier does not store two of its arguments.

Noise (C101): the exact contracts of the other properties are compared with reported values that differ from exact 0/1 values by at most `ε` (`Verif/Noise.lean`), function
by function for the parts that hold, and with whole runs for the parts that do not.

Whole runs (C66, C67, C70-C74, C77, C79): the plug-ins of the fit loop are instantiated with the modelled master and subproblems; invariants of
the pair (master, subproblems) over all calls that the loop makes. The solvers are arbitrary functions that meet a contract; the `LP` folder
proves that exact solvers meet it, and the `*Demo` files run the whole model with such solvers inside the kernel.

Reports and limits (C148, C149, C152, C155): `print_stats` and the result file are functions from the state to numbers and lines, and C149 reads the lines back with a separate
reader. C152 bounds the end of a run by the durations of its calls; C155 derives the whole sequence of calls on the subproblems from the protocol of C04, C05 and C12.

Training errors of rules (C144, C145, C153, C154): consequences of the optimality of the final integer program, stated with the answers of `predict` on the training rows. C153
shows that its hypotheses cannot be met with `C < 0` or `p < 0`, which the constructors accept.

Python's floats (C109, C119-C121, C150, C151): the functions are repeated with a rounding function after every operation (`Verif/Fl.lean`), of which only the laws of IEEE rounding in range are used.

## 4. Trusted base

Lean's kernel; the axioms `propext`, `Classical.choice`, `Quot.sound`; the reading of the Python code recorded in the comments.
See section 6 for the list of modelled and unmodelled parts (updated as the model grows).

Solver contracts (hypotheses of the theorems that need them, never axioms): an answer of status OPTIMAL is feasible and optimal for the exact
rational model, its dual values have the signs of the constraints, satisfy complementary slackness and price all columns correctly. `LP/Duality.lean`
and `LP/Integer.lean` prove that such answers exist for every feasible bounded model, so the contracts are satisfiable.
`BDR/FitIdeal.lean` builds from them one exact solver that meets the whole contract of the Boolean rule runs, for every binary instance with `C >= 0` and `p >= 0`
(`exact_contract`); with it a run without limits ends with `mp_optimal_` (`C66_exact_optimal`).

Evidence that the model is the code: the unit tests `test_parameter_tuner.py`, `test_bdrc.py` and `test_dtree.py` are replayed in `Verif/Tests`. Every asserted
value comes out of the model, for every correct solver answer where the answer is determined, otherwise for one correct answer that is
exhibited. Not replayed: `test_default_params` of `test_bdrc.py` (it checks constructor defaults) and `test_common.py` (`check_estimator` of sklearn). Three expectations
are not forced by a correct solver, and this is proved beside them: `test_heuristics` of BDR (`heuristics_not_forced`: other answers that are equally optimal end with
other clauses and without `mp_optimal_`), and the duals of the leaf constraints in `test_master_prob` and `test_master_prob_add_col` (`master_prob_not_forced`:
only their sum is determined). These tests depend on the tie breaking of the installed solver.

## 5. Where the code disagrees with its documentation or with the natural claim

False as stated. The full statement is kept as a Lean proposition, its negation is proved with a concrete run and the part that does hold is proved as `_partial`:

* C11 `performed_iter_` is set to 0 and never incremented.
* C34 a second `fit` keeps the model of the first: `generate_mp` returns when `generated_` is set (the decision tree master does the same).
* C115 a second `fit` of the tree classifier ignores the new features (`C115_features`), and may certify with `mp_optimal_` a tree that predicts none of the
  new labels (`C115_labels_refuted`).
* C116 a training value that equals a threshold of the CART tree may go to the right in scikit-learn, which compares in single precision, and goes to the left
  everywhere in this code, so the experiment's classifier may be less accurate than the reported CART tree (`C116_tie_refuted`).
* C142 `CutGenerator.solution_count()` (lines 528-529) cannot be called: `__init__` assigns a number to the attribute of the same name, so the call raises TypeError
  (`C142_count_method`). Nothing in the repository calls it.
* C35 with three or more classes `get_objective_coeff_mp` and pricing disagree on which rows are negative.
* C51 `DTreeSubProblemHeuristic` gives a leaf that no kept row reaches the target -1 (line 1979); when this path is selected, `predict` raises ValueError for a
  test row that reaches the leaf.
* C55 `violated_row_constraint` compares `abs(sum - 1)`, so rows whose sum is below 1 get constraints that the solution satisfies.
* C62 for depth 7 and more `int(100 / (2^depth - 1))` is 0 and every node but the root loses all candidate splits; depth 0 divides by zero.
* C80 the constraint that a split is used once per path is commented out; exact pricing returns paths that repeat a split when nodes share candidates.
* C81 `DTreeSubProblemOld` counts every row once although it stands for `weight` rows; with merged rows `mp_optimal_` is set too early.
* C84 the Boolean rule master counts a negative row once for every satisfied clause. `mp_optimal_` therefore bounds this Hamming loss, not the number of errors: on
  XOR data the LP value is at least 2 while the rule `x0 or x1` makes one error.
* C87 `fit` overwrites `classes_` and the label encoder before it checks anything, and `is_fitted_` stays True. After a refit with a single label raised ValueError, the
  classifier predicts that label with the old rule. C138 says in general what a failed refit does to the answers.
* C78 initial paths of the experiment may use splits that are no candidates; no constraint then ties the path to the other leaves and the
  integer solution need not be a tree. The run in `PrepareDemo.lean` promises 6 correct rows of 5.
* C98 the classifier gets `time_limit - preprocessing_time`; when the preparation took longer than the time limit this is negative, and a negative limit means no limit:
  the training runs until it ends by itself.
* C100 the result file is written after `score` on the test data, which may raise (C51). The run in `MainDemo.lean` trains successfully, classifies all training rows
  correctly and ends with ValueError without a result file.
* C101 rounding noise. Rule pricing reads a clause with `solution_value() > 0`, and both `solve_ip` read the selection with `> 0`, while tree pricing uses `> 0.5`. The duals
  of the rule master are asserted to be `>= 0` without tolerance. With an error of one billionth in the answers of one solver `fit` raises AssertionError (pricing
  values, duals), selects a rule above the complexity bound, or selects the paths of two trees and labels training rows wrongly.

Further observations made while modelling (recorded in comments of the definitions):

* The docstrings state `sum c_k w_k >= C` (1b); the code, and the paper, use `<= C`.
* Row constraints of the tree master are `<= 1`, cuts are `= 1`; the docstring has `= 1` for both.
* A node with a duplicate candidate split gets two constraints of which the dictionary keeps the last.
* `DTreeClassifier.__init__` does not check that initial paths use candidate splits, and nothing in the class fills `left_rows`/`right_rows` of the splits.
* Depth 0 paths make `get_satisfied_rows` raise IndexError.
* `mp_optimal_` is set when no column was accepted, whatever the status of the restricted master was. A status other than OPTIMAL gives empty
  duals, and the pricing problems then raise IndexError or KeyError.
* `added_row` grows by one entry per cut although it is indexed by rows (harmless: only the first entries are read).
* `add_column` appends to the list of initial paths that the caller passed.
* The heuristic subtracts the duals of all rows that follow a path, integer pricing only those of rows that are kept in pricing; both are right because
  rows removed from pricing are removed from the master.
* In the experiment `preprocess` gets `preprocessing_time_limit - elapsed`, which may be negative, and a negative limit means no limit.
* Without a split in any CART tree the preparation raises IndexError; labels of the test file that do not occur in the training file make
  `label_encoder.transform` raise.
* The result file is named after the file name of the training file and the depth only; runs on files of the same name in different directories, or with different
  limits, overwrite each other (`C97_overwritten`).
* The rule classifiers accept labels with three or more classes. `predict` then only returns the two smallest ones, and `fit` may raise AssertionError with exact
  solvers, because a clause that is already in the master is priced out again (C112).
* `fit` of a tree classifier renumbers the paths in the list that it shares with every other classifier constructed from it. The other one still predicts the same, but
  its next `fit` reads the wrong variables (`C113_refit_refuted`), or variables that its solver does not have.
* A larger `max_iterations` never increases the Hamming loss of the rule but may increase its training errors: the loss counts a row of class 0 once for every selected
  clause that covers it (`C114_rule_errors_refuted`).
* `--help` is not an option of the experiment (exit code 2), only `-h` is.
* `reset_timer_`/`remove_gen_vars` is dead code in the tree classifier.
* `set_params(C=..)` or `set_params(p=..)` on a rule classifier changes what `get_params` reports and nothing else, so every candidate of a parameter search over `C`
  trains the same rule (C106, `Params.Demo.C106_refuted`). `get_params`, `set_params` and `clone` of `DTreeClassifier` raise `AttributeError`, always: the
  constructor stores neither `use_old_sp` nor `master_solver_type` (C106).
* `predict` of the rule classifier does not compare the number of features with that of the training data: on shorter rows it either answers or raises
  `IndexError`, depending on the values in the row (C107).
* `DTreeClassifier.predict` does not compare the number of features either. It raises `IndexError` if a row does not have a feature that it is asked for on
  its way through the tree, and possibly also if it has all of these, because the selected paths are tried one after the other and list lower nodes first
  (C118, `C118_off_the_way_refuted`).

## 6. Modelled and unmodelled parts

Modelled: all of `_parameter_tuner.py` (of `print_stats` the numbers, not the texts); of `_col_gen_classifier.py` `ColGenClassifier.__init__`, `fit`, `BaseSubproblem.__init__`,
`get_tunable_params`, `solve_model`; of `_bdr_classifier.py` every function except `_more_tags` and printing (`get_params_from_string` as a constant, since parameters of solvers are opaque); of
`_dtree_classifier.py` every function that computes something: `Path`, `Node`, `Leaf`, `Split`, `Row`, `get_satisfied_rows`, `get_satisfied_cuts`,
`row_satisfies_path`, `CutGenerator`, `DTreeMasterProblem`, the four pricing classes, `PathGenerator`, `DTreeClassifier`; of `dtree_experiment.py`
`main` (lines 59-371) and the helpers 386-787.

Not modelled: floating point outside the tuner, the pricing and cut generation of the tree classifier and the pricing heuristics (numbers and arithmetic of the code are exact; noise in the answers of the solvers is the
subject of C101, the tuner with rounding that of C109, `DTreeSubProblemSat` with rounding that of C119, the heuristics with rounding that of C120, cut generation with rounding that of C121, `float32` trees of C116, the numbering of trees of C150, `score` of C151; overflow and NaN nowhere); the
solvers, their parameters and model export/import (the copied integer model is the same model with integrality); `sklearn` (CART training, validation of anything but lists of numbers), csv parsing and tables with anything but numbers (labels may be any ordered set, represented by numbers), the texts of floating point numbers in the result file (`str`; its name, lines and numbers are modelled, the writer of `csv` in C149), int() of non-ASCII digits, `print`; the identity of Python objects, except in C125 (elsewhere aliasing of `Path`, `Split` and `Row` objects
between master and subproblems is modelled by passing the current value, which C125 justifies for distinct objects); threads
(the callback of CP-SAT is a list of solutions in the order they are reported); memory and recursion limits.
