{
 "claims": [
  {
   "property": "C01",
   "status": "proved",
   "theorems": [
    "Verif.Fit.C01_terminates",
    "Verif.Fit.C01_iteration_limit",
    "Verif.Fit.C01_fuel_irrelevant",
    "Verif.Fit.C01_limit_always"
   ],
   "note": "arbitrary environment"
  },
  {
   "property": "C02",
   "status": "proved",
   "theorems": [
    "Verif.Fit.C02_stop_reason"
   ],
   "note": ""
  },
  {
   "property": "C03",
   "status": "proved",
   "theorems": [
    "Verif.Fit.C03_mp_optimal",
    "Verif.Fit.C03_converse"
   ],
   "note": ""
  },
  {
   "property": "C04",
   "status": "proved",
   "theorems": [
    "Verif.Fit.C04_level_discipline"
   ],
   "note": "also for runs that raise"
  },
  {
   "property": "C05",
   "status": "proved",
   "theorems": [
    "Verif.Fit.C05_one_contributor"
   ],
   "note": "also for runs that raise"
  },
  {
   "property": "C06",
   "status": "proved",
   "theorems": [
    "Verif.Fit.C06_column_accounting"
   ],
   "note": ""
  },
  {
   "property": "C07",
   "status": "proved",
   "theorems": [
    "Verif.Fit.C07_finite_columns",
    "Verif.Fit.C07_iterations",
    "Verif.Fit.C07_invariant"
   ],
   "note": ""
  },
  {
   "property": "C08",
   "status": "proved",
   "theorems": [
    "Verif.Fit.C08_time_limit",
    "Verif.Fit.C08_nothing_after",
    "Verif.Fit.C08_checked_before_pricing"
   ],
   "note": ""
  },
  {
   "property": "C09",
   "status": "proved",
   "theorems": [
    "Verif.Fit.C09_single_class"
   ],
   "note": ""
  },
  {
   "property": "C10",
   "status": "proved",
   "theorems": [
    "Verif.Fit.C10_returns",
    "Verif.Fit.C10_raises"
   ],
   "note": ""
  },
  {
   "property": "C100",
   "status": "partial",
   "theorems": [
    "Verif.Exp.C100_program_partial",
    "Verif.Exp.C100_reaches_training",
    "Verif.Exp.C100_depth",
    "Verif.Exp.C100_unseen_label",
    "Verif.Exp.Demo.C100_refuted"
   ],
   "note": "False of the code: score on the test data may raise because of a selected path with target -1, and then no result file is written (C100_refuted). C100_program_partial says exactly when this happens and that the claim holds otherwise, for prepared paths over candidate splits (C78) and optimal integer solutions."
  },
  {
   "property": "C101",
   "status": "partial",
   "theorems": [
    "Verif.DTree.C101_tree_pricing",
    "Verif.DTree.C101_tree_selection_partial",
    "Verif.DTree.C101_tree_selection_superset",
    "Verif.BDR.C101_clause_partial",
    "Verif.BDR.C101_clause_superset",
    "Verif.BDR.C101_rule_partial",
    "Verif.BDR.C101_duals",
    "Verif.DTree.Demo.C101_tree_refuted",
    "Verif.BDR.Demo.C101_clause_refuted",
    "Verif.BDR.Demo.C101_duals_refuted",
    "Verif.BDR.Demo.C101_rule_refuted"
   ],
   "note": "Proved without restriction for tree pricing. False of the code elsewhere, refuted with whole runs whose answers are off by one billionth. The _partial theorems hold when no exact zero is reported positive; the duals of the rule master are accepted exactly when none is reported negative."
  },
  {
   "property": "C102",
   "status": "proved",
   "theorems": [
    "Verif.BDR.C102_sizes",
    "Verif.BDR.C102_compare",
    "Verif.BDR.C102_agree",
    "Verif.BDR.C102_exact"
   ],
   "note": "Exact answers are hypotheses on the solvers (no rounding); C102_exact discharges them for ideal solvers that exist for every input."
  },
  {
   "property": "C103",
   "status": "proved",
   "theorems": [
    "Verif.BDR.C103_same_run",
    "Verif.BDR.C103_predict",
    "Verif.BDR.C103_binarise"
   ],
   "note": ""
  },
  {
   "property": "C104",
   "status": "proved",
   "theorems": [
    "Verif.DTree.C104_no_access_fails",
    "Verif.DTree.C104_same_runs",
    "Verif.DTree.C104_fit",
    "Verif.DTree.C104_predict"
   ],
   "note": "Accesses that Python may skip are checked too. The state after a failed access is not modelled."
  },
  {
   "property": "C105",
   "status": "partial",
   "theorems": [
    "Verif.DTree.C105_objects",
    "Verif.DTree.C105_constructor",
    "Verif.DTree.C105_reuse_partial",
    "Verif.DTree.C105_second_fit_partial",
    "Verif.DTree.C105_second_fit_rows_partial",
    "Verif.DTree.C105_rows_kept",
    "Verif.DTree.C105_rows_ignored",
    "Verif.DTree.C105_rows_used_up",
    "Verif.DTree.Demo.C105_refuted_keyError",
    "Verif.DTree.Demo.C105_refuted_wrong_row",
    "Verif.DTree.Demo.C105_refuted_cuts"
   ],
   "note": "False of the code: the constructor refuses the list once a path with target -1 was generated; data rows that were passed keep the path ids of the first classifier, which makes the tenth solve_rmp of the second raise KeyError or add a constraint that excludes the best tree (with master_beta_constraints_as_cuts); cuts in the splits make add_column raise IndexError. Holds if no cut was added and either no data rows were passed or master_beta_constraints_as_cuts is off (then the recorded path ids have no influence at all, C105_rows_ignored). The three refutations are runs of the master problem, not of fit."
  },
  {
   "property": "C106",
   "status": "partial",
   "theorems": [
    "Verif.Params.C106_get_params",
    "Verif.Params.C106_set_params",
    "Verif.Params.C106_unknown_name",
    "Verif.Params.C106_clone",
    "Verif.Params.C106_fit_new",
    "Verif.Params.C106_max_iterations",
    "Verif.Params.C106_complexity_partial",
    "Verif.Params.C106_unread_ignored",
    "Verif.Params.C106_search_blind",
    "Verif.Params.Demo.C106_refuted",
    "Verif.Params.C106_tree_get_params",
    "Verif.Params.C106_tree_set_params",
    "Verif.Params.C106_tree_clone",
    "Verif.Params.C106_clone_checks"
   ],
   "note": "False of the code. Rule classifiers: the protocol holds for get_params, set_params, clone and max_iterations, but C, p and the solver names set after construction never influence fit (C106_unread_ignored, witness C106_refuted). Tree classifier: get_params, set_params and clone raise AttributeError for every argument list (C106_tree_*)."
  },
  {
   "property": "C107",
   "status": "proved",
   "theorems": [
    "Verif.BDR.C107_no_access_fails",
    "Verif.BDR.C107_same_runs",
    "Verif.BDR.C107_returns",
    "Verif.BDR.C107_predict",
    "Verif.BDR.C107_predict_fitted",
    "Verif.BDR.C107_other_data",
    "Verif.BDR.Demo.C107_refit_fails"
   ],
   "note": "all accesses of the model with checks; a second fit on data with more features raises IndexError (C107_refit_fails)"
  },
  {
   "property": "C108",
   "status": "proved",
   "theorems": [
    "Verif.DTree.C108_bound",
    "Verif.DTree.C108_fitted_is_tree",
    "Verif.DTree.C108_best_tree",
    "Verif.DTree.C108_beats_other_runs",
    "Verif.DTree.C108_count"
   ],
   "note": "the solver contracts are those of C74; C108_count: without weights rowsWith is the number of rows"
  },
  {
   "property": "C109",
   "status": "proved",
   "theorems": [
    "Verif.Tuner.Round.C109_exact",
    "Verif.Tuner.Round.C109_running_stat",
    "Verif.Tuner.Round.C109_mean_error",
    "Verif.Tuner.Round.C109_get_best_value",
    "Verif.Tuner.Round.C109_exploit",
    "Verif.Tuner.Round.C109_explore_count",
    "Verif.Tuner.Round.C109_gap",
    "Verif.Tuner.Round.C109_total",
    "Verif.Tuner.Round.C109_gap_underflow"
   ],
   "note": "Rounding is any monotone map onto the floating point numbers that keeps them; round to nearest even is one (Fl.nearestEven, with its error bound). No overflow, no NaN."
  },
  {
   "property": "C11",
   "status": "partial",
   "theorems": [
    "Verif.Fit.Demo.C11_performed_iter_false",
    "Verif.Fit.C11_performed_iter_partial"
   ],
   "note": "false of the code: performed_iter_ is never incremented; negation proved by witness, and proved that it is 0 on every return"
  },
  {
   "property": "C110",
   "status": "proved",
   "theorems": [
    "Verif.DTree.C110_no_tree",
    "Verif.DTree.C110_default"
   ],
   "note": ""
  },
  {
   "property": "C111",
   "status": "proved",
   "theorems": [
    "Verif.DTree.C111_infeasible_start",
    "Verif.DTree.C111_missing_leaf",
    "Verif.DTree.C111_no_common_split",
    "Verif.DTree.C111_no_paths"
   ],
   "note": "LpFeasible and IpSound: the solvers report only feasible points as solutions. Strict plug-ins (list and dictionary accesses can fail)."
  },
  {
   "property": "C112",
   "status": "proved",
   "theorems": [
    "Verif.BDR.C112_two_labels",
    "Verif.BDR.C112_third_label",
    "Verif.BDR.Multi.C112_raises"
   ],
   "note": "Exact solvers: ExactSolvers, met by exact_solvers."
  },
  {
   "property": "C113",
   "status": "proved",
   "theorems": [
    "Verif.DTree.C113_objects",
    "Verif.DTree.C113_construct",
    "Verif.DTree.C113_predictions",
    "Verif.DTree.SharedDemo.C113_refit_refuted"
   ],
   "note": "Sharing is modelled as a view: both classifiers have the same list of paths and the same splits. C113_refit_refuted is the negative part on concrete data, with exact solvers."
  },
  {
   "property": "C114",
   "status": "proved",
   "theorems": [
    "Verif.Fit.C114_same_start",
    "Verif.Fit.C114_optimal_same",
    "Verif.Fit.C114_counts",
    "Verif.BDR.C114_rule_clauses",
    "Verif.BDR.C114_rule_not_worse",
    "Verif.BDR.C114_rule_exact",
    "Verif.BDR.LimitDemo.C114_rule_errors_refuted",
    "Verif.DTree.C114_tree_paths",
    "Verif.DTree.C114_tree_not_worse",
    "Verif.DTree.C114_tree_hits"
   ],
   "note": "Two runs from one state, compared call by call. C114_rule_exact holds with exact solvers without contract hypotheses. C114_rule_errors_refuted is the last sentence of the statement."
  },
  {
   "property": "C115",
   "status": "proved",
   "theorems": [
    "Verif.DTree.C115_features",
    "Verif.DTree.C115_built",
    "Verif.DTree.C115_old_tree",
    "Verif.DTree.OtherDemo.C115_labels_refuted"
   ],
   "note": "the last theorem is the existence claim of the last sentence"
  },
  {
   "property": "C116",
   "status": "proved",
   "theorems": [
    "Verif.Exp.C116_comparison",
    "Verif.Exp.C116_same_leaf",
    "Verif.Exp.C116_accuracy",
    "Verif.Exp.C116_not_worse",
    "Verif.Exp.SingleDemo.C116_tie_refuted"
   ],
   "note": "numbers are rationals; single and double precision numbers are those with 24 and 53 bits and the usual smallest exponents, without a largest one (scikit-learn rejects data that overflow)"
  },
  {
   "property": "C117",
   "status": "proved",
   "theorems": [
    "Verif.Exp.C117_best_tree",
    "Verif.Exp.C117_beats_other_runs",
    "Verif.Exp.C117_same_questions",
    "Verif.Exp.C117_merging"
   ],
   "note": "for the CP-SAT pricing (use_old_sp=False) of the certified run, as in C108"
  },
  {
   "property": "C118",
   "status": "proved",
   "theorems": [
    "Verif.DTree.C118_exact",
    "Verif.DTree.C118_extra",
    "Verif.DTree.C118_fitted",
    "Verif.DTree.NarrowDemo.C118_off_the_way_refuted"
   ],
   "note": "exact reads of predict; check_array itself (equal row lengths) is not modelled"
  },
  {
   "property": "C119",
   "status": "proved",
   "theorems": [
    "Verif.DTree.C119_sound",
    "Verif.DTree.C119_complete",
    "Verif.DTree.C119_tree",
    "Verif.DTree.C119_sound64",
    "Verif.DTree.C119_complete64",
    "Verif.DTree.C119_exact",
    "Verif.DTree.FloatDemo.C119_differs"
   ],
   "note": "overflow, infinities and NaN are not modelled; the integer program of CP-SAT is solved in exact integers; DTreeSubProblem and DTreeSubProblemOld (whose objective is computed by the MIP solver) are not covered"
  },
  {
   "property": "C12",
   "status": "proved",
   "theorems": [
    "Verif.Fit.C12_positions",
    "Verif.Fit.C12_update",
    "Verif.Fit.C12_generate",
    "Verif.Fit.C12_rounds"
   ],
   "note": ""
  },
  {
   "property": "C120",
   "status": "proved",
   "theorems": [
    "Verif.BDR.C120_rule",
    "Verif.BDR.C120_rule64",
    "Verif.BDR.C120_rule_new",
    "Verif.BDR.C120_rule_magnitude",
    "Verif.BDR.C120_rule_fit",
    "Verif.BDR.C120_rule_same",
    "Verif.BDR.C120_rule_exact",
    "Verif.BDR.FloatDemo.C120_rule_differs",
    "Verif.DTree.C120_tree",
    "Verif.DTree.C120_tree64",
    "Verif.DTree.C120_tree_same",
    "Verif.DTree.C120_tree_exact",
    "Verif.DTree.FloatDemo.C120_tree_differs"
   ],
   "note": "Overflow, infinities and NaN are not modelled; the counts of rows are exact integers."
  },
  {
   "property": "C121",
   "status": "proved",
   "theorems": [
    "Verif.DTree.C121_mass",
    "Verif.DTree.C121_sound",
    "Verif.DTree.C121_complete",
    "Verif.DTree.C121_new",
    "Verif.DTree.C121_beta",
    "Verif.DTree.C121_rounds",
    "Verif.DTree.C121_exact",
    "Verif.DTree.C121_binary64",
    "Verif.DTree.C121_rounds64",
    "Verif.DTree.FloatDemo.C121_differs"
   ],
   "note": "Error bounds for any rounding of stated accuracy, binary64 instances, LP tolerance."
  },
  {
   "property": "C122",
   "status": "proved",
   "theorems": [
    "Verif.Exp.C122_sound",
    "Verif.Exp.C122_exact",
    "Verif.Exp.C122_rest",
    "Verif.Exp.C122_constraints",
    "Verif.Exp.C122_agree"
   ],
   "note": "any call of preprocess_rows(aggressive=True); C122_exact needs a candidate split at every node"
  },
  {
   "property": "C123",
   "status": "proved",
   "theorems": [
    "Verif.BDR.C123_same_or_raises",
    "Verif.BDR.C123_never_certified",
    "Verif.BDR.C123_plain_time_limit",
    "Verif.BDR.C123_raises",
    "Verif.BDR.C123_plain_raises",
    "Verif.BDR.C123_no_lp",
    "Verif.BDR.C123_no_lp_session",
    "Verif.DTree.C123_no_lp_tree",
    "Verif.DTree.C123_no_lp_tree_session"
   ],
   "note": ""
  },
  {
   "property": "C124",
   "status": "proved",
   "theorems": [
    "Verif.BDR.C124_predict",
    "Verif.BDR.C124_failed_calls",
    "Verif.BDR.C124_cleared",
    "Verif.DTree.C124_predict_tree",
    "Verif.DTree.C124_failed_calls_tree",
    "Verif.DTree.C124_cleared_tree"
   ],
   "note": ""
  },
  {
   "property": "C125",
   "status": "proved",
   "theorems": [
    "Verif.DTree.C125_refines",
    "Verif.DTree.C125_writes",
    "Verif.DTree.C125_shared",
    "Verif.DTree.C125_same_object",
    "Verif.DTree.C125_same_object_fit"
   ],
   "note": "heap model of the tree classifier (objects under addresses); distinct objects refine to the value model, frame of the writes and independence of predictions without any distinctness assumption, one path object twice makes the master problem unbounded"
  },
  {
   "property": "C126",
   "status": "proved",
   "theorems": [
    "Verif.DTree.C126_not_shallower",
    "Verif.DTree.C126_shallower",
    "Verif.DTree.C126_no_rows"
   ],
   "note": "on the heap model; the mark children_are_leaves survives from a shallower tree; the demo shows a fractional solution that the lost row constraints would cut off"
  },
  {
   "property": "C127",
   "status": "proved",
   "theorems": [
    "Verif.DTree.C127_pricing",
    "Verif.DTree.C127_bounded_duals",
    "Verif.DTree.C127_cut",
    "Verif.DTree.Demo.C127_unbounded_duals"
   ],
   "note": "The range of the pricing model is conditional on the size of the duals; the last theorem shows that exact optimal duals can violate it."
  },
  {
   "property": "C128",
   "status": "proved",
   "theorems": [
    "Verif.DTree.C128_solve_rmp",
    "Verif.DTree.C128_schedule",
    "Verif.DTree.C128_no_influence",
    "Verif.DTree.C128_short_runs"
   ],
   "note": "One solve_rmp call; whole runs of fit from any state; equality of runs that differ in the cut generation only; the first fit with an iteration limit below ten. The demo shows that the bounds are attained."
  },
  {
   "property": "C129",
   "status": "proved",
   "theorems": [
    "Verif.BDR.C129_rule",
    "Verif.BDR.C129_rule_one",
    "Verif.DTree.C129_tree",
    "Verif.DTree.C129_tree_one"
   ],
   "note": "The meaning of rows of a csr_matrix (indexing, comparison, truth value) is trusted from SciPy."
  },
  {
   "property": "C13",
   "status": "proved",
   "theorems": [
    "Verif.Tuner.C13_running_stat"
   ],
   "note": "exact arithmetic in any linearly ordered field"
  },
  {
   "property": "C130",
   "status": "proved",
   "theorems": [
    "Verif.DTree.C130_tree_renamed",
    "Verif.DTree.C130_tree_data",
    "Verif.DTree.C130_tree_swap",
    "Verif.BDR.C130_rule_exists",
    "Verif.BDR.C130_rule_both",
    "Verif.BDR.Demo.C130_rule_swap_refuted"
   ],
   "note": ""
  },
  {
   "property": "C131",
   "status": "proved",
   "theorems": [
    "Verif.BDR.C131_drop",
    "Verif.BDR.C131_clause",
    "Verif.BDR.C131_needed",
    "Verif.BDR.C131_errors"
   ],
   "note": "For every session and every sublist of the trained clauses; the solver contract is optimality of the final integer program."
  },
  {
   "property": "C132",
   "status": "proved",
   "theorems": [
    "Verif.DTree.C132_best",
    "Verif.DTree.C132_hits",
    "Verif.DTree.C132_exchange",
    "Verif.DTree.C132_leaf"
   ],
   "note": "Contracts as in C73: sound cuts, IP answers optimal."
  },
  {
   "property": "C133",
   "status": "proved",
   "theorems": [
    "Verif.BDR.C133_compare",
    "Verif.BDR.C133_exact",
    "Verif.BDR.C133_repeat"
   ],
   "note": "Contracts as in C102."
  },
  {
   "property": "C134",
   "status": "proved",
   "theorems": [
    "Verif.DTree.C134_lower",
    "Verif.DTree.C134_upper",
    "Verif.DTree.C134_more_rows"
   ],
   "note": "Contracts and certificate as in C108; data_rows not given."
  },
  {
   "property": "C135",
   "status": "proved",
   "theorems": [
    "Verif.Point.C135_rule",
    "Verif.Point.C135_rule_checked",
    "Verif.Point.C135_rule_sparse",
    "Verif.Point.C135_tree",
    "Verif.Point.C135_tree_checked",
    "Verif.Point.C135_tree_sparse",
    "Verif.Point.C135_length",
    "Verif.Point.C135_append",
    "Verif.Point.C135_answered",
    "Verif.Point.C135_perm"
   ],
   "note": "check_array is not modelled here; see C124 for the validation."
  },
  {
   "property": "C136",
   "status": "proved",
   "theorems": [
    "Verif.Sk.checkArray_cases",
    "Verif.Sk.checkXY_cases",
    "Verif.BDR.C136_refused",
    "Verif.BDR.C136_one_class",
    "Verif.BDR.C136_two_classes",
    "Verif.BDR.C136_ends",
    "Verif.BDR.C136_predict",
    "Verif.BDR.C136_not_fitted",
    "Verif.DTree.C136_refused",
    "Verif.DTree.C136_one_class",
    "Verif.DTree.C136_returns",
    "Verif.DTree.C136_predict"
   ],
   "note": "Dense input only. The validation of scikit-learn is modelled after its documentation. NotFittedError for trees is in C124."
  },
  {
   "property": "C137",
   "status": "proved",
   "theorems": [
    "Verif.Point.C137_score",
    "Verif.Point.C137_range",
    "Verif.Point.C137_batches",
    "Verif.Point.C137_order",
    "Verif.DTree.C137_certified",
    "Verif.Exp.C137_report"
   ],
   "note": "for every row-wise predict; C135_rule, C135_tree and their variants show that the predict methods are row-wise. C137_report: the accuracies of the experiment are such scores. Weighted scores are not modelled."
  },
  {
   "property": "C138",
   "status": "proved",
   "theorems": [
    "Verif.BDR.C138_ranks",
    "Verif.BDR.C138_one_class",
    "Verif.BDR.C138_refused",
    "Verif.DTree.C138_ranks_tree",
    "Verif.DTree.C138_one_class_tree",
    "Verif.DTree.C138_refused_tree"
   ],
   "note": "the refutation of the natural claim that a refused refit changes nothing is C87"
  },
  {
   "property": "C139",
   "status": "proved",
   "theorems": [
    "Verif.BDR.C139_separable",
    "Verif.BDR.C139_necessary",
    "Verif.BDR.C139_exact"
   ],
   "note": "the bounds on C by one million come from the tolerance 1e-6 of pricing"
  },
  {
   "property": "C14",
   "status": "proved",
   "theorems": [
    "Verif.Tuner.C14_variance_nonneg",
    "Verif.Tuner.C14_standard_deviation"
   ],
   "note": "exact arithmetic; real square root for the second theorem"
  },
  {
   "property": "C140",
   "status": "proved",
   "theorems": [
    "Verif.BDR.C140_factor",
    "Verif.BDR.C140_errors",
    "Verif.BDR.C140_exact"
   ],
   "note": "Approximation factor of certified rules by rounding the final linear program to one clause per positive row."
  },
  {
   "property": "C141",
   "status": "proved",
   "theorems": [
    "Verif.Point.C141_bound",
    "Verif.Point.C141_rule",
    "Verif.DTree.C141_tree",
    "Verif.BDR.C141_pairs"
   ],
   "note": "score is bounded by the majority labels of rows that look alike; pairs of clashing rows each cost a rule one error."
  },
  {
   "property": "C142",
   "status": "proved",
   "theorems": [
    "Verif.DTree.C142_callback",
    "Verif.DTree.C142_run",
    "Verif.DTree.C142_count_method",
    "Verif.DTree.C142_cuts_method",
    "Verif.DTree.C142_refines",
    "Verif.Exp.C142_nodes_list",
    "Verif.Exp.C142_nodes_list_error",
    "Verif.Exp.C142_nodes_list_id",
    "Verif.Exp.C142_experiment",
    "Verif.Exp.C142_last_split"
   ],
   "note": "CutGenerator as an object with index loops and attribute lookup; refines the list of cuts of the master model."
  },
  {
   "property": "C143",
   "status": "proved",
   "theorems": [
    "Verif.Point.C143_score",
    "Verif.Point.C143_range",
    "Verif.Point.C143_scale",
    "Verif.Point.C143_repeated",
    "Verif.Point.C143_equal"
   ],
   "note": "For every method that works row by row, which C135 proves of the predict methods of both classifiers."
  },
  {
   "property": "C144",
   "status": "proved",
   "theorems": [
    "Verif.BDR.C144_features",
    "Verif.BDR.C144_constant"
   ],
   "note": "From the complexity bound of the final integer program."
  },
  {
   "property": "C145",
   "status": "proved",
   "theorems": [
    "Verif.DTree.C145_features",
    "Verif.DTree.C145_witness",
    "Verif.BDR.C145_rule"
   ],
   "note": "trees of FitOk arguments with solvers within FitContract; rules with an optimal final integer program"
  },
  {
   "property": "C146",
   "status": "proved",
   "theorems": [
    "Verif.DTree.C146_tree",
    "Verif.DTree.C146_guess",
    "Verif.DTree.C146_labels",
    "Verif.DTree.C146_learns"
   ],
   "note": "certified runs as in C108, without prepared rows"
  },
  {
   "property": "C147",
   "status": "proved",
   "theorems": [
    "Verif.DTree.C147_rules",
    "Verif.DTree.C147_margin"
   ],
   "note": "FitOk arguments, solvers within FitContract"
  },
  {
   "property": "C148",
   "status": "proved",
   "theorems": [
    "Verif.Tuner.C148_stats",
    "Verif.Tuner.C148_report"
   ],
   "note": "exact arithmetic, as C18"
  },
  {
   "property": "C149",
   "status": "proved",
   "theorems": [
    "Verif.Exp.Cmd.C149_roundtrip",
    "Verif.Exp.Cmd.C149_file",
    "Verif.Exp.Cmd.C149_main",
    "Verif.Exp.Cmd.C149_unknown"
   ],
   "note": "values are given as texts"
  },
  {
   "property": "C15",
   "status": "proved",
   "theorems": [
    "Verif.Tuner.C15_get_best_value"
   ],
   "note": "all histories, all draws; square root any function non-negative on non-negative numbers"
  },
  {
   "property": "C150",
   "status": "proved",
   "theorems": [
    "Verif.DTree.C150_exact",
    "Verif.DTree.C150_ends",
    "Verif.DTree.C150_deep",
    "Verif.DTree.C150_53"
   ],
   "note": ""
  },
  {
   "property": "C151",
   "status": "proved",
   "theorems": [
    "Verif.Point.C151_monotone",
    "Verif.Point.C151_order",
    "Verif.Point.C151_one",
    "Verif.Point.C151_count",
    "Verif.Point.FloatScoreDemo.C151_big"
   ],
   "note": ""
  },
  {
   "property": "C152",
   "status": "proved",
   "theorems": [
    "Verif.Fit.C152_overrun"
   ],
   "note": "Reading the clock is assumed to take no time."
  },
  {
   "property": "C153",
   "status": "proved",
   "theorems": [
    "Verif.BDR.C153_bound",
    "Verif.BDR.C153_penalty",
    "Verif.BDR.C153_raises"
   ],
   "note": "Assumes that the answers of the integer solver are what their status says."
  },
  {
   "property": "C154",
   "status": "proved",
   "theorems": [
    "Verif.BDR.C154_matrix",
    "Verif.BDR.C154_refit",
    "Verif.BDR.C154_zero",
    "Verif.BDR.C154_large",
    "Verif.BDR.C154_balanced"
   ],
   "note": "Assumes that the final integer program is solved to optimality."
  },
  {
   "property": "C155",
   "status": "proved",
   "theorems": [
    "Verif.Fit.C155_updates",
    "Verif.Fit.C155_generate",
    "Verif.Fit.C155_counts",
    "Verif.Fit.C155_any"
   ],
   "note": ""
  },
  {
   "property": "C16",
   "status": "proved",
   "theorems": [
    "Verif.Tuner.C16_explore_count",
    "Verif.Tuner.C16_two_values",
    "Verif.Tuner.C16_uniform"
   ],
   "note": "all histories"
  },
  {
   "property": "C17",
   "status": "proved",
   "theorems": [
    "Verif.Tuner.C17_exploit"
   ],
   "note": "iff: exactly the eligible values can be returned"
  },
  {
   "property": "C18",
   "status": "proved",
   "theorems": [
    "Verif.Tuner.C18_bookkeeping"
   ],
   "note": "refinement of an abstract score log"
  },
  {
   "property": "C19",
   "status": "proved",
   "theorems": [
    "Verif.Tuner.C19_history",
    "Verif.Tuner.C19_solve_model"
   ],
   "note": "any solver answer; division by zero characterised exactly"
  },
  {
   "property": "C20",
   "status": "proved",
   "theorems": [
    "Verif.BDR.C20_predict",
    "Verif.BDR.C20_order",
    "Verif.BDR.C20_empty"
   ],
   "note": "every explanation and matrix"
  },
  {
   "property": "C21",
   "status": "proved",
   "theorems": [
    "Verif.BDR.C21_monotone"
   ],
   "note": "every explanation and pair of rows"
  },
  {
   "property": "C22",
   "status": "proved",
   "theorems": [
    "Verif.BDR.C22_master"
   ],
   "note": "every history of calls on the master; binary labels"
  },
  {
   "property": "C23",
   "status": "proved",
   "theorems": [
    "Verif.BDR.C23_distinct",
    "Verif.BDR.C23_add"
   ],
   "note": "every history; any labels"
  },
  {
   "property": "C24",
   "status": "proved",
   "theorems": [
    "Verif.BDR.C24_complexity"
   ],
   "note": "integer solver answers assumed feasible"
  },
  {
   "property": "C25",
   "status": "proved",
   "theorems": [
    "Verif.BDR.C25_loss"
   ],
   "note": "integer solver answers assumed feasible, p >= 0"
  },
  {
   "property": "C26",
   "status": "proved",
   "theorems": [
    "Verif.BDR.C26_sound"
   ],
   "note": "integer solver answers assumed feasible"
  },
  {
   "property": "C27",
   "status": "proved",
   "theorems": [
    "Verif.BDR.C27_complete",
    "Verif.BDR.C27_feasible"
   ],
   "note": "integer solver answers assumed optimal"
  },
  {
   "property": "C28",
   "status": "proved",
   "theorems": [
    "Verif.BDR.C28_update",
    "Verif.BDR.C28_result"
   ],
   "note": "every history of calls on the subproblem, same data"
  },
  {
   "property": "C29",
   "status": "proved",
   "theorems": [
    "Verif.BDR.C29_heuristic",
    "Verif.BDR.C29_raises"
   ],
   "note": "every data set, duals and K"
  },
  {
   "property": "C30",
   "status": "proved",
   "theorems": [
    "Verif.BDR.C30_heuristic",
    "Verif.BDR.C30_exact",
    "Verif.BDR.C30_fit"
   ],
   "note": "RMP duals assumed dual feasible up to 1e-6; C30_fit is about every add_column call of a whole run"
  },
  {
   "property": "C31",
   "status": "proved",
   "theorems": [
    "Verif.BDR.C31_certificate",
    "Verif.BDR.C31_fit"
   ],
   "note": "RMP answer and pricing answer assumed optimal; C31_fit is the statement for a whole run ending with mp_optimal_"
  },
  {
   "property": "C32",
   "status": "proved",
   "theorems": [
    "Verif.BDR.C32_terminates"
   ],
   "note": "no assumption on solvers or clock"
  },
  {
   "property": "C33",
   "status": "proved",
   "theorems": [
    "Verif.BDR.C33_bits",
    "Verif.BDR.C33_injective",
    "Verif.BDR.C33_surjective"
   ],
   "note": "every index and clause"
  },
  {
   "property": "C34",
   "status": "partial",
   "theorems": [
    "Verif.BDR.C34_refit_keeps_old",
    "Verif.BDR.C34_refit_false",
    "Verif.BDR.C34_first_fit_partial",
    "Verif.DTree.OtherDemo.C115_labels_refuted"
   ],
   "note": "false of the code for a second fit: negation proved with a witness for the rule classifier and for the tree classifier; proved for the first fit"
  },
  {
   "property": "C35",
   "status": "partial",
   "theorems": [
    "Verif.BDR.C35_agree_partial",
    "Verif.BDR.C35_agree_false"
   ],
   "note": "proved for two classes; false of the code for three classes: negation proved with a witness"
  },
  {
   "property": "C36",
   "status": "proved",
   "theorems": [
    "Verif.DTree.C36_set_leaf",
    "Verif.DTree.C36_create_leaf"
   ],
   "note": "heap numbering of create_leaf and set_leaf for every depth and leaf"
  },
  {
   "property": "C37",
   "status": "proved",
   "theorems": [
    "Verif.DTree.C37_unique_leaf"
   ],
   "note": "for every row exactly one leaf path is satisfied, the one found by walking down"
  },
  {
   "property": "C38",
   "status": "proved",
   "theorems": [
    "Verif.DTree.C38_meaning",
    "Verif.DTree.C38_equivalence"
   ],
   "note": "on well-formed paths"
  },
  {
   "property": "C39",
   "status": "proved",
   "theorems": [
    "Verif.DTree.C39_add_rows",
    "Verif.DTree.C39_satisfied_rows",
    "Verif.DTree.C39_add_cuts",
    "Verif.DTree.C39_satisfied_cuts"
   ],
   "note": "non-empty paths; sets filled from the data by add_rows_to_splits, cuts registered by add_cuts"
  },
  {
   "property": "C40",
   "status": "proved",
   "theorems": [
    "Verif.DTree.C40_master_program",
    "Verif.DTree.C40_paths_and_rows"
   ],
   "note": "every reached state, any order of add_column / solve_rmp (with cuts) / solve_ip / generate_mp calls"
  },
  {
   "property": "C41",
   "status": "proved",
   "theorems": [
    "Verif.DTree.C41_selected_tree"
   ],
   "note": "assumes the integer solver's answer is feasible (contract), all paths use candidate splits"
  },
  {
   "property": "C42",
   "status": "proved",
   "theorems": [
    "Verif.DTree.C42_cuts_keep_integer_points",
    "Verif.DTree.C42_trees_stay_feasible"
   ],
   "note": ""
  },
  {
   "property": "C43",
   "status": "proved",
   "theorems": [
    "Verif.DTree.C43_two_leaves_redundant",
    "Verif.DTree.C43_removed_rows"
   ],
   "note": ""
  },
  {
   "property": "C44",
   "status": "proved",
   "theorems": [
    "Verif.DTree.C44_reachable_exact",
    "Verif.DTree.C44_split_sets"
   ],
   "note": "nodes must not claim leaf children beforehand unless they have them"
  },
  {
   "property": "C45",
   "status": "proved",
   "theorems": [
    "Verif.Exp.C45_weights",
    "Verif.Exp.C45_removed_sp",
    "Verif.Exp.C45_removed_master",
    "Verif.Exp.C45_split_sets",
    "Verif.Exp.Demo.C45_clock_needed"
   ],
   "note": "the time test may answer anything at each evaluation; the claim about the master needs a clock that does not go backwards (shown necessary)"
  },
  {
   "property": "C46",
   "status": "proved",
   "theorems": [
    "Verif.DTree.C46_points",
    "Verif.DTree.C46_cost"
   ],
   "note": "For the three integer pricing classes, every feasible point after any sequence of update_subproblem and generate_columns calls. DTreeSubProblemOld has no z variables; the cost part is for the other two classes."
  },
  {
   "property": "C47",
   "status": "proved",
   "theorems": [
    "Verif.DTree.C47_mip_sound",
    "Verif.DTree.C47_sat_sound"
   ],
   "note": "The solver answer is assumed to satisfy the constraints of the model it was given (and, for pywraplp, to report the objective of its point)."
  },
  {
   "property": "C48",
   "status": "proved",
   "theorems": [
    "Verif.DTree.C48_rounding",
    "Verif.DTree.C48_best",
    "Verif.DTree.C48_mip_exact",
    "Verif.DTree.C48_old_exact"
   ],
   "note": "sat_complete covers returned and rejected solutions; C48_mip_exact and C48_old_exact are the same claim without rounding for DTreeSubProblem and DTreeSubProblemOld (the latter for unweighted counts)."
  },
  {
   "property": "C49",
   "status": "proved",
   "theorems": [
    "Verif.DTree.C49_heuristic",
    "Verif.DTree.C49_update"
   ],
   "note": "For all random draws and all set orders. The returned target is -1 exactly when no kept row follows the path (see C51)."
  },
  {
   "property": "C50",
   "status": "proved",
   "theorems": [
    "Verif.DTree.C50_objective_attained"
   ],
   "note": ""
  },
  {
   "property": "C51",
   "status": "partial",
   "theorems": [
    "Verif.DTree.C51_predict_known_partial",
    "Verif.DTree.Demo.C51_refuted",
    "Verif.DTree.C51_exact"
   ],
   "note": "The full claim is false (C51_refuted: a full run of fit with exact solvers after which predict raises ValueError, because DTreeSubProblemHeuristic generated a path with target -1 for a leaf no training row reaches). Proved part: predict returns known classes for kept training rows, and for all rows when no selected path has target -1. C51_exact says exactly when predict raises."
  },
  {
   "property": "C52",
   "status": "proved",
   "theorems": [
    "Verif.DTree.C52_cut_model",
    "Verif.DTree.C52_generate"
   ],
   "note": ""
  },
  {
   "property": "C53",
   "status": "proved",
   "theorems": [
    "Verif.DTree.C53_cuts_separate",
    "Verif.DTree.C53_columns_enter_cuts"
   ],
   "note": ""
  },
  {
   "property": "C54",
   "status": "proved",
   "theorems": [
    "Verif.DTree.C54_beta_call",
    "Verif.DTree.C54_history"
   ],
   "note": ""
  },
  {
   "property": "C55",
   "status": "partial",
   "theorems": [
    "Verif.DTree.C55_beta_violated_partial",
    "Verif.DTree.Demo.C55_refuted"
   ],
   "note": "the claim is false as stated: violated_row_constraint compares abs(sum - 1), so a row with sum below 1 gets a constraint the solution satisfies (C55_refuted); proved: the sum differs from 1 by more than 1e-6 and the constraint cuts the solution off iff the sum exceeds 1"
  },
  {
   "property": "C56",
   "status": "proved",
   "theorems": [
    "Verif.DTree.C56_tree_columns",
    "Verif.DTree.C56_improved",
    "Verif.BDR.C56_bdr_columns"
   ],
   "note": ""
  },
  {
   "property": "C57",
   "status": "proved",
   "theorems": [
    "Verif.DTree.C57_tree_init",
    "Verif.Fit.C57_shapes"
   ],
   "note": ""
  },
  {
   "property": "C58",
   "status": "proved",
   "theorems": [
    "Verif.Exp.C58_split_numbering"
   ],
   "note": ""
  },
  {
   "property": "C59",
   "status": "proved",
   "theorems": [
    "Verif.Exp.C59_merge",
    "Verif.Exp.C59_reduce",
    "Verif.Exp.C59_reduce_error"
   ],
   "note": "Ties of counts are broken by the larger split id; a node without candidates makes reduce_splits raise ValueError."
  },
  {
   "property": "C60",
   "status": "proved",
   "theorems": [
    "Verif.Exp.C60_heap_numbering"
   ],
   "note": "For trees in depth-first order (children numbered after their parent), as scikit-learn produces them."
  },
  {
   "property": "C61",
   "status": "proved",
   "theorems": [
    "Verif.Exp.C61_initial_paths",
    "Verif.Exp.C61_feasible"
   ],
   "note": ""
  },
  {
   "property": "C62",
   "status": "partial",
   "theorems": [
    "Verif.Exp.C62_candidates_partial",
    "Verif.Exp.C62_refuted",
    "Verif.Exp.C62_depth_zero"
   ],
   "note": "False of the code: for depth 7 and more the quota 100/(2^depth-1) is 0, so no node but the root keeps a candidate (proved), depth 0 divides by zero. Proved for depths 1 to 6."
  },
  {
   "property": "C63",
   "status": "proved",
   "theorems": [
    "Verif.Fit.C63_all_offered",
    "Verif.Fit.C63_all_offered_return",
    "Verif.Fit.C63_prefix"
   ],
   "note": "all plug-ins; runs that raise are covered by C63_prefix"
  },
  {
   "property": "C64",
   "status": "proved",
   "theorems": [
    "Verif.Fit.C64_exceptions",
    "Verif.Fit.C64_propagates"
   ],
   "note": "all plug-ins"
  },
  {
   "property": "C65",
   "status": "proved",
   "theorems": [
    "Verif.Fit.C65_improving"
   ],
   "note": "all plug-ins, arbitrary previous estimator state"
  },
  {
   "property": "C66",
   "status": "proved",
   "theorems": [
    "Verif.BDR.C66_fit_returns"
   ],
   "note": "solver contracts stated in Verif.BDR.Contract"
  },
  {
   "property": "C67",
   "status": "proved",
   "theorems": [
    "Verif.BDR.C67_trained_rule",
    "Verif.BDR.C67_accuracy"
   ],
   "note": "final integer program assumed solved to optimality"
  },
  {
   "property": "C68",
   "status": "proved",
   "theorems": [
    "Verif.DTree.C68_duals_price_columns",
    "Verif.DTree.C68_cuts_delivered"
   ],
   "note": "For all Reached master states. LinkDemo shows an instance."
  },
  {
   "property": "C69",
   "status": "proved",
   "theorems": [
    "Verif.DTree.C69_lp_bound"
   ],
   "note": "LP weak duality over the built model with any list of further columns."
  },
  {
   "property": "C70",
   "status": "proved",
   "theorems": [
    "Verif.DTree.C70_no_tree_beats_bound",
    "Verif.DTree.C70_sat",
    "Verif.DTree.C70_old"
   ],
   "note": "Rows removed from pricing must also be removed from the master (as the experiment's preprocessing does). C70_old needs unit weights: DTreeSubProblemOld ignores row weights."
  },
  {
   "property": "C71",
   "status": "proved",
   "theorems": [
    "Verif.DTree.C71_terminates",
    "Verif.DTree.C71_fit_succeeds"
   ],
   "note": "Under FitOk (caller) and FitContract (solvers)."
  },
  {
   "property": "C72",
   "status": "proved",
   "theorems": [
    "Verif.DTree.C72_fitted_tree"
   ],
   "note": "Under FitOk and FitContract."
  },
  {
   "property": "C73",
   "status": "proved",
   "theorems": [
    "Verif.DTree.C73_beats_initial_trees",
    "Verif.DTree.C73_cost_attained"
   ],
   "note": "Optimality of the final integer program is a hypothesis of the first theorem only."
  },
  {
   "property": "C74",
   "status": "proved",
   "theorems": [
    "Verif.DTree.C74_optimal_bound",
    "Verif.DTree.C74_optimal_bound_old"
   ],
   "note": "use_old_sp needs unit weights because DTreeSubProblemOld ignores weights."
  },
  {
   "property": "C75",
   "status": "proved",
   "theorems": [
    "Verif.Exp.C75_complete",
    "Verif.Exp.C75_program_small",
    "Verif.Exp.C75_program_large"
   ],
   "note": ""
  },
  {
   "property": "C76",
   "status": "proved",
   "theorems": [
    "Verif.Exp.C76_paths"
   ],
   "note": ""
  },
  {
   "property": "C77",
   "status": "proved",
   "theorems": [
    "Verif.Exp.C77_prepared",
    "Verif.Exp.C77_no_split"
   ],
   "note": ""
  },
  {
   "property": "C78",
   "status": "partial",
   "theorems": [
    "Verif.Exp.C78_candidates_partial",
    "Verif.Exp.C78_all_partial",
    "Verif.Exp.C78_fitOk",
    "Verif.Exp.Demo.C78_refuted",
    "Verif.Exp.Demo.C78_refuted_initial"
   ],
   "note": "False of the code, for paths of further trees and for the initial tree at depth 6; the full run in C78_refuted ends with an inconsistent selection. Proved for depth at most 6 when the final tree covers the nodes of the others or there are few trees."
  },
  {
   "property": "C79",
   "status": "proved",
   "theorems": [
    "Verif.Exp.C79_not_worse",
    "Verif.Exp.C79_bound",
    "Verif.Exp.C79_experiment"
   ],
   "note": ""
  },
  {
   "property": "C80",
   "status": "partial",
   "theorems": [
    "Verif.DTree.Demo.C80_refuted",
    "Verif.DTree.C80_mip_partial",
    "Verif.DTree.C80_sat_partial",
    "Verif.DTree.C80_heuristic_partial",
    "Verif.DTree.C80_conflict_partial"
   ],
   "note": "False of the exact pricing problems: the constraint is commented out, and C80_refuted gives an optimal pricing answer whose path uses a split twice. Proved: the heuristic respects it always, the exact problems when the nodes above a leaf share no candidate, and a path using a split in both directions is followed by no row."
  },
  {
   "property": "C81",
   "status": "partial",
   "theorems": [
    "Verif.DTree.Demo.C81_refuted",
    "Verif.DTree.Demo.C81_weight_one_partial"
   ],
   "note": "False with merged rows: C81_refuted is a run of fit with exact solvers that ends with mp_optimal_ and objective 3 while a tree is worth 4. Proved for rows of weight 1."
  },
  {
   "property": "C82",
   "status": "proved",
   "theorems": [
    "Verif.Fit.C82_times"
   ],
   "note": "For every clock that never runs backwards and plug-ins that never ask for a restart of the timer (as both estimators of the repository). Examples3 shows that the latter is needed."
  },
  {
   "property": "C83",
   "status": "proved",
   "theorems": [
    "Verif.Fit.C83_clock"
   ],
   "note": "Simulation relation between two environments that differ in the clock only, by induction over the loops."
  },
  {
   "property": "C84",
   "status": "partial",
   "theorems": [
    "Verif.BDR.C84_hamming_partial",
    "Verif.BDR.C84_disjoint_partial",
    "Verif.BDR.C84_perfect_partial",
    "Verif.BDR.Xor.C84_false"
   ],
   "note": "False of the code as stated (C84_false, XOR data): a negative row counts once per satisfied clause. Proved: the bound for the Hamming loss, and for the training loss of rules whose clauses do not overlap on negative rows."
  },
  {
   "property": "C85",
   "status": "proved",
   "theorems": [
    "Verif.Tuner.C85_bounded_regret",
    "Verif.Tuner.C85_convergence",
    "Verif.Tuner.C85_real"
   ],
   "note": "Any ordered field with a square root; C85_real is the instance for the reals."
  },
  {
   "property": "C86",
   "status": "proved",
   "theorems": [
    "Verif.Fit.C86_relabel",
    "Verif.BDR.C86_predict",
    "Verif.DTree.C86_predict"
   ],
   "note": "Labels are integers in the model."
  },
  {
   "property": "C87",
   "status": "partial",
   "theorems": [
    "Verif.BDR.C87_refit_partial",
    "Verif.BDR.Demo.C87_false"
   ],
   "note": "False of the code as stated (C87_false): classes_ is overwritten before the check. Proved: a refit that raises before solve_ip keeps the rule, and the predictions if the labels are the same."
  },
  {
   "property": "C88",
   "status": "proved",
   "theorems": [
    "Verif.DTree.C88_no_cut_no_violation"
   ],
   "note": "Assumes that the cut run passes an optimal solution of its (scaled) model to the callback; bestCut shows that such runs exist."
  },
  {
   "property": "C89",
   "status": "proved",
   "theorems": [
    "Verif.DTree.C89_cuts_are_new",
    "Verif.DTree.C89_rounds_end_clean"
   ],
   "note": "Assumes sound LP answers and, for the second theorem, an optimal cut run."
  },
  {
   "property": "C90",
   "status": "proved",
   "theorems": [
    "Verif.Exp.C90_columns",
    "Verif.Exp.C90_hit_rate",
    "Verif.Exp.C90_cuts",
    "Verif.Exp.C90_accuracies",
    "Verif.Exp.C90_times"
   ],
   "note": "No assumption on solvers; times need a clock that shows real time. preprocessing_time and mster_cuts_time are not modelled."
  },
  {
   "property": "C91",
   "status": "proved",
   "theorems": [
    "Verif.Exp.C91_initial",
    "Verif.Exp.C91_not_worse_than_cart",
    "Verif.Exp.C91_experiment",
    "Verif.Exp.Demo.C91_needs_candidates"
   ],
   "note": "The last theorem shows that the condition on the paths is needed."
  },
  {
   "property": "C92",
   "status": "proved",
   "theorems": [
    "Verif.DTree.C92_refit_succeeds",
    "Verif.DTree.C92_refit_tree",
    "Verif.DTree.C92_paths_kept",
    "Verif.DTree.C92_not_worse",
    "Verif.DTree.C92_hits",
    "Verif.DTree.C92_optimal_bound"
   ],
   "note": "any number of fits on the same data; costs of the selected paths never fall"
  },
  {
   "property": "C93",
   "status": "proved",
   "theorems": [
    "Verif.BDR.C93_best_rule",
    "Verif.BDR.C93_disjoint",
    "Verif.BDR.C93_single"
   ],
   "note": "Optimality of the final integer program is a hypothesis, met by exact solvers (exact_ip)."
  },
  {
   "property": "C94",
   "status": "proved",
   "theorems": [
    "Verif.BDR.C94_refit_ends",
    "Verif.BDR.C94_refit_returns",
    "Verif.BDR.C94_refit_new_clauses",
    "Verif.BDR.C94_refit_accuracy",
    "Verif.BDR.C94_clauses_kept",
    "Verif.BDR.C94_refit_not_worse",
    "Verif.BDR.C94_refit_bound",
    "Verif.BDR.C94_exact"
   ],
   "note": "Session is the set of states after any number of fit calls on the same data; Later allows other data."
  },
  {
   "property": "C95",
   "status": "proved",
   "theorems": [
    "Verif.DTree.C95_same_run",
    "Verif.DTree.C95_recoded",
    "Verif.DTree.C95_rows"
   ],
   "note": "No contract on solvers is needed: both runs use the same oracle. KnownSplits asks that paths and candidate lists name existing splits."
  },
  {
   "property": "C96",
   "status": "proved",
   "theorems": [
    "Verif.Exp.Cmd.C96_settings",
    "Verif.Exp.Cmd.C96_order",
    "Verif.Exp.Cmd.C96_misuse",
    "Verif.Exp.Cmd.C96_help",
    "Verif.Exp.Cmd.C96_value",
    "Verif.Exp.Cmd.C96_all",
    "Verif.Exp.Cmd.C96_numbers",
    "Verif.Exp.Cmd.C96_int"
   ],
   "note": "getopt and int() are modelled as far as main uses them (ASCII); time_limit / 3 is exact."
  },
  {
   "property": "C97",
   "status": "proved",
   "theorems": [
    "Verif.Exp.Cmd.C97_result_file",
    "Verif.Exp.Cmd.Demo.C97_overwritten"
   ],
   "note": "File names are lists of characters with / as separator."
  },
  {
   "property": "C98",
   "status": "partial",
   "theorems": [
    "Verif.Exp.C98_rest_partial",
    "Verif.Exp.C98_stop_partial",
    "Verif.Exp.C98_no_limit",
    "Verif.Exp.C98_unlimited",
    "Verif.Exp.Demo.C98_refuted"
   ],
   "note": "False of the code: if the preparation takes as long as the time limit, the classifier runs without limit (C98_refuted). Holds when the preparation is faster than the time limit; the time between the end of the preparation and the start of fit is not counted."
  },
  {
   "property": "C99",
   "status": "proved",
   "theorems": [
    "Verif.Exp.C99_failures",
    "Verif.Exp.C99_features",
    "Verif.Exp.C99_test_columns",
    "Verif.Exp.C99_labels",
    "Verif.Exp.C99_accuracy"
   ],
   "note": "Cells are numbers; labels of another type may be replaced by numbers in the same order."
  }
 ]
}