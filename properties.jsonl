{"id": "C01", "title": "Iteration limit is a hard limit", "statement": "With max_iterations > 0 the loop in fit always ends; when fit returns, iter_ <= max_iterations, and solve_rmp was called exactly iter_ times. Also when a call raises, solve_rmp was called at most max_iterations times. With max_iterations <= 0 the limit is never the reason for stopping.", "quantifier": "every master problem, every family of subproblems, every clock, every max_iterations, every data set", "why_tests_cant": "master, subproblems and clock are arbitrary user code; a test fixes one of each", "anchors": ["col_gen_estimator/_col_gen_classifier.py:ColGenClassifier.fit"]}
{"id": "C02", "title": "fit stops for exactly one of three reported reasons", "statement": "When the loop of fit ends normally, exactly one holds: mp_optimal_ is True; time_limit_reached_ is True; or neither, and then max_iterations > 0 and iter_ == max_iterations. mp_optimal_ and time_limit_reached_ are never both True.", "quantifier": "every run of fit that returns, over all masters, subproblems, clocks and limits", "why_tests_cant": "the flag combination depends on the interleaving of clock readings with accepted columns", "anchors": ["col_gen_estimator/_col_gen_classifier.py:ColGenClassifier.fit"]}
{"id": "C03", "title": "mp_optimal_ means every subproblem was asked and nothing was accepted", "statement": "If mp_optimal_ is True after fit, then after the last solve_rmp call generate_columns was called on every subproblem of every level, and every add_column call made after that solve_rmp returned False. Conversely if that last round ended with no accepted column and without hitting the time limit, mp_optimal_ is True.", "quantifier": "every run of fit that returns", "why_tests_cant": "depends on all histories of answers of user supplied subproblems", "anchors": ["col_gen_estimator/_col_gen_classifier.py:ColGenClassifier.fit"]}
{"id": "C04", "title": "Level discipline", "statement": "generate_columns of a subproblem at level k+1 is called in an iteration only after every subproblem of every level <= k was called in that same iteration (after the same solve_rmp), and none of the columns they produced was accepted by the master.", "quantifier": "every call made during every run of fit, also runs that raise", "why_tests_cant": "a property of all call traces", "anchors": ["col_gen_estimator/_col_gen_classifier.py:ColGenClassifier.fit"]}
{"id": "C05", "title": "At most one subproblem contributes columns per iteration", "statement": "Between two consecutive solve_rmp calls all accepted columns come from a single subproblem call, and after a subproblem call with an accepted column no other subproblem is called in that iteration.", "quantifier": "every run of fit, also runs that raise", "why_tests_cant": "a property of all call traces", "anchors": ["col_gen_estimator/_col_gen_classifier.py:ColGenClassifier.fit"]}
{"id": "C06", "title": "Column accounting", "statement": "num_col_added_sp_[k][i] equals the number of add_column calls that returned True for columns produced by subproblem (k,i); the shape of num_col_added_sp_ is the shape of subproblems; the total is at least iter_ - 1.", "quantifier": "every run of fit that returns", "why_tests_cant": "counts over unbounded histories", "anchors": ["col_gen_estimator/_col_gen_classifier.py:ColGenClassifier.fit"]}
{"id": "C07", "title": "Finitely many columns imply termination without any limit", "statement": "If the master accepts at most N columns during its life, fit's loop ends after at most N+1 iterations even when max_iterations and time_limit are disabled.", "quantifier": "every N, every master and subproblems", "why_tests_cant": "termination over unbounded runs", "anchors": ["col_gen_estimator/_col_gen_classifier.py:ColGenClassifier.fit"]}
{"id": "C08", "title": "Time limit is respected", "statement": "time_limit_reached_ is True only if time_limit > 0 and a clock reading exceeded the start (or last reset) of the timer by more than time_limit; from that reading on no generate_columns, add_column or solve_rmp call is made. With time_limit <= 0 it is never True.", "quantifier": "every clock, every master and subproblems", "why_tests_cant": "all schedules of clock readings", "anchors": ["col_gen_estimator/_col_gen_classifier.py:ColGenClassifier.fit"]}
{"id": "C09", "title": "Single class data is rejected before anything is touched", "statement": "fit raises ValueError when y holds fewer than two distinct labels, and then neither the master problem nor any subproblem has been called; with two or more distinct labels generate_mp is the first call.", "quantifier": "every label vector", "why_tests_cant": "all label vectors of all lengths", "anchors": ["col_gen_estimator/_col_gen_classifier.py:ColGenClassifier.fit"]}
{"id": "C10", "title": "Integer master solved exactly once, and is_fitted_ only on success", "statement": "solve_ip is called exactly once, after the last column generation call, if rmp_is_ip, and never otherwise; if it reports failure fit raises AssertionError and is_fitted_ is not set; fit returns normally only with is_fitted_ set.", "quantifier": "every run of fit", "why_tests_cant": "all runs", "anchors": ["col_gen_estimator/_col_gen_classifier.py:ColGenClassifier.fit"]}
{"id": "C11", "title": "performed_iter_ reports the number of iterations", "statement": "After fit, performed_iter_ (documented as the total number of iterations performed in the column generation loop) equals iter_, the number of solve_rmp calls.", "quantifier": "every run of fit that returns", "why_tests_cant": "existing tests only read iter_", "anchors": ["col_gen_estimator/_col_gen_classifier.py:ColGenClassifier.fit"]}
{"id": "C12", "title": "Subproblems see current duals, updated exactly once before pricing", "statement": "In each iteration update_subproblem is called exactly once on every subproblem, in level order, with the dual costs returned by the solve_rmp of that iteration, before any generate_columns; every generate_columns call of the iteration gets those same dual costs.", "quantifier": "every run of fit", "why_tests_cant": "a property of all call traces", "anchors": ["col_gen_estimator/_col_gen_classifier.py:ColGenClassifier.fit"]}
{"id": "C13", "title": "RunningStat computes mean and sample variance", "statement": "After any sequence of push and clear calls, num_data_values, mean and variance equal the count, arithmetic mean (0.0 if empty) and unbiased sample variance (0.0 if fewer than 2) of exactly the values pushed since the last clear.", "quantifier": "every sequence of push and clear calls (exact arithmetic)", "why_tests_cant": "all histories, clear leaves stale fields behind", "anchors": ["col_gen_estimator/_parameter_tuner.py:RunningStat"]}
{"id": "C14", "title": "Variance is never negative so standard_deviation never raises", "statement": "variance() >= 0 after every history, hence standard_deviation() is defined, is non-negative and its square is the variance.", "quantifier": "every sequence of push and clear calls (exact arithmetic)", "why_tests_cant": "all histories", "anchors": ["col_gen_estimator/_parameter_tuner.py:RunningStat"]}
{"id": "C15", "title": "get_best_value always returns a registered value", "statement": "For a parameter with at least one value and any history of add_value, set_*, adjust_score and get_best_value calls, get_best_value does not raise (in particular its non-empty-bucket assertion holds) and returns one of the added values; without values it raises.", "quantifier": "every history and every behaviour of the random generator", "why_tests_cant": "random draws and float scores make the space infinite", "anchors": ["col_gen_estimator/_parameter_tuner.py:Parameter"]}
{"id": "C16", "title": "Exploration budget", "statement": "get_best_value explores exactly explore_count times and then exploits forever; with two values the explored choice on a call with counter e is the second value iff e and switch_flag share a bit; the counter never becomes negative.", "quantifier": "every history, every flag and count", "why_tests_cant": "all counters and flags", "anchors": ["col_gen_estimator/_parameter_tuner.py:Parameter.get_best_value"]}
{"id": "C17", "title": "Every value is sampled before convergence", "statement": "In the exploit phase, while some value has fewer than 4 scores, get_best_value returns a value with fewer than 4 scores; otherwise it returns a value whose final score plus a tenth of its standard deviation reaches the best final score, and every such value can be returned.", "quantifier": "every history and every random draw", "why_tests_cant": "all score histories", "anchors": ["col_gen_estimator/_parameter_tuner.py:Parameter.get_best_value"]}
{"id": "C18", "title": "Score bookkeeping of Parameter", "statement": "After any history, total_counts_ is the number of adjust_score calls and the sum of the per-value counts, and the final score of a value is 5.0 if it was never scored and otherwise mean(scores of the value) + c_fac / count. adjust_score without index credits the value last returned by get_best_value.", "quantifier": "every history", "why_tests_cant": "all histories", "anchors": ["col_gen_estimator/_parameter_tuner.py:Parameter.adjust_score"]}
{"id": "C19", "title": "Solver feedback scores are well defined", "statement": "Each solve_model call appends one solve time and one gap; the gap is in [0,1], is 0 for OPTIMAL and 1 for failure; every tunable parameter receives exactly one score per call; the solver is always configured with values from the registered lists. The only failing cases are a FEASIBLE answer with objective and bound both 0 and a zero time limit (ZeroDivisionError).", "quantifier": "every solver answer and every history of calls", "why_tests_cant": "all solver answers", "anchors": ["col_gen_estimator/_col_gen_classifier.py:BaseSubproblem.solve_model", "col_gen_estimator/_col_gen_classifier.py:BaseSubproblem.get_tunable_params"]}
{"id": "C20", "title": "predict evaluates the DNF rule", "statement": "After fit, predict(X)[i] is the second class iff row i has non-zero values on all features of at least one clause of the explanation, and otherwise the first class; the order of clauses, order of features in a clause and repetitions do not matter; an empty explanation predicts the first class everywhere.", "quantifier": "every explanation and every input matrix", "why_tests_cant": "all inputs", "anchors": ["col_gen_estimator/_bdr_classifier.py:BooleanDecisionRuleClassifier.predict", "col_gen_estimator/_bdr_classifier.py:BDRMasterProblem.satisfies_clause"]}
{"id": "C21", "title": "predict is monotone in the binary features", "statement": "Turning zero feature values of a row into non-zero ones never changes the prediction from the second class to the first class.", "quantifier": "every explanation and pair of rows", "why_tests_cant": "all pairs of rows", "anchors": ["col_gen_estimator/_bdr_classifier.py:BooleanDecisionRuleClassifier.predict"]}
{"id": "C22", "title": "BDR restricted master is the documented program after any history", "statement": "After generate_mp and any sequence of add_column calls on binary labels, an assignment is feasible for the solver's model iff all variables are >= 0, each positive example i satisfies xi_i + sum of w_k over clauses satisfied by i >= 1, and sum (1+len(k)) w_k <= C; its objective is p*sum xi + sum over clauses of (number of negative examples satisfying k)*w_k.", "quantifier": "every binary data set, C, p and sequence of columns", "why_tests_cant": "all histories of add_column", "anchors": ["col_gen_estimator/_bdr_classifier.py:BDRMasterProblem.generate_mp", "col_gen_estimator/_bdr_classifier.py:BDRMasterProblem.add_column"]}
{"id": "C23", "title": "No clause is ever held twice, empty clauses are refused", "statement": "In every reachable master state all clauses are pairwise different; add_column([]) returns False and changes nothing; adding a clause already present raises AssertionError and changes nothing; any other clause is added and True returned.", "quantifier": "every history of add_column", "why_tests_cant": "all histories", "anchors": ["col_gen_estimator/_bdr_classifier.py:BDRMasterProblem.add_column"]}
{"id": "C24", "title": "Explanation complexity never exceeds C", "statement": "After a successful solve_ip the sum over clauses in the explanation of (1 + number of features) is at most C.", "quantifier": "every data set, history of columns and feasible integer solution returned by the solver", "why_tests_cant": "all solutions", "anchors": ["col_gen_estimator/_bdr_classifier.py:BDRMasterProblem.solve_ip"]}
{"id": "C25", "title": "Training loss of the rule is bounded by the integer objective", "statement": "p * (number of positive training rows predicted negative) + (number of negative training rows predicted positive) <= objective value of the integer solution the explanation was read from.", "quantifier": "every data set, history and feasible integer solution, p >= 0", "why_tests_cant": "all solutions", "anchors": ["col_gen_estimator/_bdr_classifier.py:BDRMasterProblem.solve_ip", "col_gen_estimator/_bdr_classifier.py:BooleanDecisionRuleClassifier.predict"]}
{"id": "C26", "title": "Pricing problem soundness", "statement": "A clause returned by the integer pricing problem has at most D features, has strictly increasing feature indices, and its true reduced cost (dual of complexity times (1+length), minus duals of satisfied positives, plus satisfied negatives) is below -1e-6.", "quantifier": "every binary data set, non-negative duals, any feasible solution of the solver with its objective", "why_tests_cant": "all data and duals", "anchors": ["col_gen_estimator/_bdr_classifier.py:BDRSubProblem.create_submip", "col_gen_estimator/_bdr_classifier.py:BDRSubProblem.generate_columns"]}
{"id": "C27", "title": "Pricing problem completeness", "statement": "If the pricing problem is solved to optimality and returns no clause, no clause with at most D distinct features has reduced cost below -1e-6; the pricing model is feasible for every D >= 0.", "quantifier": "every binary data set and non-negative duals", "why_tests_cant": "exponentially many clauses", "anchors": ["col_gen_estimator/_bdr_classifier.py:BDRSubProblem.create_submip", "col_gen_estimator/_bdr_classifier.py:BDRSubProblem.generate_columns"]}
{"id": "C28", "title": "Updating the pricing objective equals rebuilding it", "statement": "Calling generate_columns again with new duals solves the same model that a fresh subproblem would build for those duals on the same data.", "quantifier": "every history of dual vectors", "why_tests_cant": "all histories of calls", "anchors": ["col_gen_estimator/_bdr_classifier.py:BDRSubProblem.update_objective"]}
{"id": "C29", "title": "Heuristic pricing is exact up to size K", "statement": "The heuristic returns exactly the strictly increasing clauses with 1..K features whose reduced cost is below -1e-6, each once, shorter ones first and lexicographically within a size.", "quantifier": "every binary data set, duals and K", "why_tests_cant": "all clauses", "anchors": ["col_gen_estimator/_bdr_classifier.py:BDRHeuristic.generate_columns"]}
{"id": "C30", "title": "Pricing never proposes a clause already in the master", "statement": "If the duals handed out by solve_rmp are dual feasible for the restricted master, neither the heuristic nor the integer pricing problem returns a clause already present, so the duplicate assertion in add_column never fires for the column-generation loop.", "quantifier": "every history and every dual feasible answer", "why_tests_cant": "all LP answers", "anchors": ["col_gen_estimator/_bdr_classifier.py:BDRMasterProblem.add_column", "col_gen_estimator/_bdr_classifier.py:BDRHeuristic.generate_columns", "col_gen_estimator/_bdr_classifier.py:BDRSubProblem.generate_columns"]}
{"id": "C31", "title": "mp_optimal_ certifies the LP over all clauses", "statement": "If the exact pricing problem proves there is no clause, the restricted master LP value is at most 1e-6*C above the LP optimum over all clauses with at most C features.", "quantifier": "every binary data set, every pair of optimal primal/dual RMP answers", "why_tests_cant": "exponentially many columns", "anchors": ["col_gen_estimator/_bdr_classifier.py:BDRSubProblem.generate_columns", "col_gen_estimator/_col_gen_classifier.py:ColGenClassifier.fit"]}
{"id": "C32", "title": "BDR training always terminates", "statement": "fit of the Boolean decision rule classifier ends (returns or raises) after at most 2^n_features iterations, whatever the solvers answer, even with max_iterations=-1.", "quantifier": "every data set and every solver behaviour", "why_tests_cant": "unbounded loops over arbitrary solver answers", "anchors": ["col_gen_estimator/_bdr_classifier.py:BooleanDecisionRuleClassifier", "col_gen_estimator/_col_gen_classifier.py:ColGenClassifier.fit"]}
{"id": "C33", "title": "Lexicographic clause enumeration", "statement": "generate_lexicographic_clause is a bijection between natural numbers and strictly increasing finite feature lists: clause(i) lists exactly the set bits of i.", "quantifier": "every index", "why_tests_cant": "all indices", "anchors": ["col_gen_estimator/_bdr_classifier.py:BDRMasterProblem.generate_lexicographic_clause"]}
{"id": "C34", "title": "Refitting forgets the previous data", "statement": "Calling fit a second time on different data trains on the new data (scikit-learn contract).", "quantifier": "every pair of data sets", "why_tests_cant": "needs two-call histories on arbitrary data", "anchors": ["col_gen_estimator/_bdr_classifier.py:BDRMasterProblem.generate_mp", "col_gen_estimator/_dtree_classifier.py:DTreeMasterProblem.generate_mp"]}
{"id": "C35", "title": "Master and pricing agree on reduced costs", "statement": "The reduced cost used by pricing equals objective coefficient minus dual-weighted column of the restricted master for every clause.", "quantifier": "every data set accepted by fit (any number of classes >= 2), clause and duals", "why_tests_cant": "all data", "anchors": ["col_gen_estimator/_bdr_classifier.py:BDRMasterProblem.get_clause_coeffs", "col_gen_estimator/_bdr_classifier.py:BDRMasterProblem.get_objective_coeff_mp", "col_gen_estimator/_bdr_classifier.py:BDRHeuristic.generate_columns"]}
{"id": "C36", "title": "Leaf and path numbering describe a complete binary tree", "statement": "For leaf id l < 2^d, Leaf.create_leaf and Path.set_leaf visit exactly d nodes, all below 2^d-1, pairwise different, ending in the root, each the parent of the previous one; left_nodes and right_nodes partition them, and a node is in left_nodes iff the corresponding bit of l is 0.", "quantifier": "every depth and leaf", "why_tests_cant": "all depths", "anchors": ["col_gen_estimator/_dtree_classifier.py:Leaf.create_leaf", "col_gen_estimator/_dtree_classifier.py:Path.set_leaf"]}
{"id": "C37", "title": "Every row follows exactly one path of a complete tree", "statement": "If one split is fixed for each internal node, then for every row exactly one leaf has its root path satisfied by the row, and it is the leaf reached by walking down from the root (left iff feature <= threshold).", "quantifier": "every depth, split assignment and row (training or unseen)", "why_tests_cant": "all rows and trees", "anchors": ["col_gen_estimator/_dtree_classifier.py:row_satisfies_path", "col_gen_estimator/_dtree_classifier.py:Leaf.create_leaf"]}
{"id": "C38", "title": "Path equality is an equivalence with the right meaning", "statement": "On well formed paths is_same_as is reflexive, symmetric and transitive and holds iff leaf, target, cost and the set of (node, split) pairs agree; equal paths are followed by the same rows.", "quantifier": "every triple of well-formed paths", "why_tests_cant": "all paths", "anchors": ["col_gen_estimator/_dtree_classifier.py:Path.is_same_as"]}
{"id": "C39", "title": "Set based row lookup agrees with direct evaluation", "statement": "After left_rows/right_rows were filled from the data, get_satisfied_rows returns exactly the rows for which row_satisfies_path holds; likewise get_satisfied_cuts returns exactly the registered cuts whose split pattern follows the path.", "quantifier": "every non-empty path, data set and history of cuts", "why_tests_cant": "all data", "anchors": ["col_gen_estimator/_dtree_classifier.py:get_satisfied_rows", "col_gen_estimator/_dtree_classifier.py:get_satisfied_cuts", "examples/dtree_experiment.py:add_rows_to_splits"]}
{"id": "C40", "title": "DTree restricted master is the documented program after any history", "statement": "After generate_mp and any sequence of add_column / beta-cut calls, an assignment is feasible for the solver model iff variables are >= 0, for each leaf the path variables sum to 1, for each leaf, node on its path and candidate split the variables of paths using that split there sum to the shared rho variable, and each added row has path sum <= 1; the objective is the sum of cost times variable.", "quantifier": "every tree, data set and history", "why_tests_cant": "all histories", "anchors": ["col_gen_estimator/_dtree_classifier.py:DTreeMasterProblem.generate_mp", "col_gen_estimator/_dtree_classifier.py:DTreeMasterProblem.add_column", "col_gen_estimator/_dtree_classifier.py:DTreeMasterProblem.add_beta_cuts"]}
{"id": "C41", "title": "The selected paths form one decision tree", "statement": "If the integer master is solved feasibly and all paths use candidate splits of their nodes, then exactly one path per leaf is selected, paths agree on the split of every shared node, every row satisfies exactly one selected path, and predict returns the target of the leaf reached by walking down that tree, independent of path order.", "quantifier": "every feasible integer solution, tree and (unseen) row", "why_tests_cant": "all solutions and rows", "anchors": ["col_gen_estimator/_dtree_classifier.py:DTreeMasterProblem.solve_ip", "col_gen_estimator/_dtree_classifier.py:DTreeClassifier.predict"]}
{"id": "C42", "title": "Row constraints and cuts never remove a tree", "statement": "Every consistent tree built from available paths satisfies every row constraint and every cut (any true/false pattern of the splits), so adding or dropping them does not change which trees are integer feasible.", "quantifier": "every tree, row and cut pattern", "why_tests_cant": "all cuts", "anchors": ["col_gen_estimator/_dtree_classifier.py:DTreeMasterProblem.add_cuts", "col_gen_estimator/_dtree_classifier.py:DTreeMasterProblem.add_beta_cuts", "col_gen_estimator/_dtree_classifier.py:DTreeMasterProblem.preprocess_rows"]}
{"id": "C43", "title": "Rows reaching at most two leaves are redundant in the LP", "statement": "For every real solution of the leaf and consistency constraints, a row with at most two reachable leaves has path sum exactly 1, so removing its constraint does not change the LP relaxation.", "quantifier": "every fractional solution, tree and row", "why_tests_cant": "continuum of LP solutions", "anchors": ["col_gen_estimator/_dtree_classifier.py:DTreeMasterProblem.preprocess_rows", "examples/dtree_experiment.py:preprocess"]}
{"id": "C44", "title": "Reachable leaves are exact", "statement": "A leaf is recorded as reachable for a row iff some choice of candidate splits along its root path is satisfied by the row; the same for nodes.", "quantifier": "every tree, candidate lists and row", "why_tests_cant": "all data", "anchors": ["col_gen_estimator/_dtree_classifier.py:DTreeMasterProblem.preprocess_rows", "examples/dtree_experiment.py:preprocess"]}
{"id": "C45", "title": "Aggressive preprocessing preserves weighted costs for every timeout", "statement": "At whatever point the time limit stops the quadratic merging, the weights of the kept rows sum to the number of rows and, for every candidate path and target, the weighted number of kept rows equals the number of original rows that follow the path and have the target; with a monotone clock a row removed from the subproblem is also removed from the master, and every removed master row has a kept representative with the same paths or reaches at most two leaves.", "quantifier": "every data set, clock and timeout point", "why_tests_cant": "all interruption points", "anchors": ["examples/dtree_experiment.py:preprocess"]}
{"id": "C46", "title": "Pricing model variables mean what they say", "statement": "In every feasible integer point of the tree pricing model exactly one split per node is chosen, y_r = 1 iff row r follows the chosen path, z_r = 1 only if in addition the row's class is the chosen target; hence the path cost returned is at most the (weighted) number of rows correctly classified, with equality when z is maximal.", "quantifier": "every leaf, candidates, data and feasible point", "why_tests_cant": "all feasible points", "anchors": ["col_gen_estimator/_dtree_classifier.py:DTreeSubProblem.create_submip", "col_gen_estimator/_dtree_classifier.py:DTreeSubProblemSat.create_submip", "col_gen_estimator/_dtree_classifier.py:PathGenerator.on_solution_callback"]}
{"id": "C47", "title": "Tree pricing is sound", "statement": "Every path returned by the integer pricing problems has reduced cost > 1e-6 with respect to the current duals, belongs to the subproblem's leaf, and uses candidate splits.", "quantifier": "every data set, duals and solver answer", "why_tests_cant": "all duals", "anchors": ["col_gen_estimator/_dtree_classifier.py:PathGenerator.on_solution_callback", "col_gen_estimator/_dtree_classifier.py:DTreeSubProblem.generate_columns"]}
{"id": "C48", "title": "Scaled integer pricing loses at most the rounding error", "statement": "If CP-SAT proves optimality of the scaled objective and the best solution is rejected (original objective <= 1e-6), no candidate path of that leaf has reduced cost above 1e-6 + (number of objective terms)*1e-5.", "quantifier": "every data set and duals", "why_tests_cant": "all duals", "anchors": ["col_gen_estimator/_dtree_classifier.py:DTreeSubProblemSat.create_submip", "col_gen_estimator/_dtree_classifier.py:DTreeSubProblemSat.scale_obj_coeff"]}
{"id": "C49", "title": "Random heuristic only returns correct improving columns", "statement": "Every path returned by the tree heuristic belongs to a leaf of the tree, uses pairwise different candidate splits, has cost equal to the weighted number of followed rows of its target, no target has a higher count, reduced cost > 1e-6, and no two returned paths are the same; each call makes exactly 100 rounds counted as success or failure.", "quantifier": "every sequence of random draws, data and duals", "why_tests_cant": "all random draws", "anchors": ["col_gen_estimator/_dtree_classifier.py:DTreeSubProblemHeuristic.generate_columns"]}
{"id": "C50", "title": "Reported integer objective is attained by predict", "statement": "The integer objective is at most the number of training rows predict classifies correctly, with equality when path costs count exactly the followed rows of their target.", "quantifier": "every feasible integer solution and data set", "why_tests_cant": "all solutions", "anchors": ["col_gen_estimator/_dtree_classifier.py:DTreeMasterProblem.solve_ip", "col_gen_estimator/_dtree_classifier.py:DTreeClassifier.predict"]}
{"id": "C51", "title": "predict always returns a known class", "statement": "predict of a fitted tree returns one of classes_ for every input row and does not raise.", "quantifier": "every fitted tree and input row", "why_tests_cant": "a leaf that no training row reaches is needed", "anchors": ["col_gen_estimator/_dtree_classifier.py:DTreeSubProblemHeuristic.generate_columns", "col_gen_estimator/_dtree_classifier.py:DTreeClassifier.predict"]}
{"id": "C52", "title": "Cut model is exactly the set of realizable rows", "statement": "A 0/1 split pattern is feasible for the cut generation model iff some real valued row produces it, and in every feasible point a path variable is 1 iff the pattern follows the path.", "quantifier": "every split list without repeated (feature, threshold), every path list", "why_tests_cant": "all patterns", "anchors": ["col_gen_estimator/_dtree_classifier.py:DTreeMasterProblem.create_cut_gen_model", "col_gen_estimator/_dtree_classifier.py:DTreeMasterProblem.add_column"]}
{"id": "C53", "title": "Every recorded cut separates the current LP solution", "statement": "Each cut recorded by the cut generator is violated by the LP solution it was generated for by more than 1e-6, and later columns enter exactly the cuts whose pattern they follow.", "quantifier": "every LP solution and solver callback sequence", "why_tests_cant": "all callbacks", "anchors": ["col_gen_estimator/_dtree_classifier.py:CutGenerator.on_solution_callback", "col_gen_estimator/_dtree_classifier.py:DTreeMasterProblem.add_cuts", "col_gen_estimator/_dtree_classifier.py:DTreeMasterProblem.add_column"]}
{"id": "C54", "title": "Beta cuts are bounded, never repeated, never for removed rows", "statement": "One add_beta_cuts call adds at most 10 constraints, each for a row that is not removed and had none before, and each row gets at most one constraint over any history.", "quantifier": "every history of calls and LP solutions", "why_tests_cant": "all histories", "anchors": ["col_gen_estimator/_dtree_classifier.py:DTreeMasterProblem.add_beta_cuts"]}
{"id": "C55", "title": "Every added beta cut is violated by the LP solution", "statement": "A row constraint added by add_beta_cuts cuts off the LP solution that triggered it.", "quantifier": "every LP solution", "why_tests_cant": "needs a fractional solution with row sum below 1", "anchors": ["col_gen_estimator/_dtree_classifier.py:DTreeMasterProblem.violated_row_constraint", "col_gen_estimator/_dtree_classifier.py:DTreeMasterProblem.add_beta_cuts"]}
{"id": "C56", "title": "RMP objective never gets worse by adding columns", "statement": "Adding columns to the tree master never decreases its LP optimum (no cuts added in between), and never increases the BDR master optimum; rmp_objective_improved is True iff the stored objective strictly grew at the last optimal solve.", "quantifier": "every history of columns", "why_tests_cant": "all histories", "anchors": ["col_gen_estimator/_dtree_classifier.py:DTreeMasterProblem.rmp_objective_improved", "col_gen_estimator/_dtree_classifier.py:DTreeMasterProblem.add_column", "col_gen_estimator/_bdr_classifier.py:BDRMasterProblem.add_column"]}
{"id": "C57", "title": "Constructor validation", "statement": "DTreeClassifier accepts its arguments iff node and leaf ids are 0,1,2,... in order and each initial path has a known leaf, known nodes, known splits, a known target and exactly tree_depth nodes and splits; ColGenClassifier accepts iff subproblem_params has the shape of subproblems.", "quantifier": "all arguments", "why_tests_cant": "all arguments", "anchors": ["col_gen_estimator/_dtree_classifier.py:DTreeClassifier.__init__", "col_gen_estimator/_col_gen_classifier.py:ColGenClassifier.__init__"]}
{"id": "C58", "title": "Split numbering of the experiment pipeline", "statement": "After any sequence of merges the combined splits have ids 0..n-1, no (feature, threshold) pair twice, existing ids never change, and get_splits_list places each split at its id.", "quantifier": "every sequence of fitted CART trees", "why_tests_cant": "all tree sequences", "anchors": ["examples/dtree_experiment.py:merge_all_splits", "examples/dtree_experiment.py:get_all_splits", "examples/dtree_experiment.py:get_splits_list"]}
{"id": "C59", "title": "Candidate lists and their reduction", "statement": "merge_all_nodes keeps candidate lists duplicate free with parallel counts equal to the total weight of merges in which the split was seen; reduce_splits keeps the min(q, n) most frequent candidates of each node and marks a split removed iff no node keeps it.", "quantifier": "every sequence of merges, every q", "why_tests_cant": "all histories", "anchors": ["examples/dtree_experiment.py:merge_all_nodes", "examples/dtree_experiment.py:reduce_splits"]}
{"id": "C60", "title": "CART node ids map to heap numbering", "statement": "get_all_nodes gives the root id 0, left/right children of id i the ids 2i+1 and 2i+2, so that a depth-d tree uses only ids below 2^d-1 and different nodes get different ids.", "quantifier": "every tree produced in depth-first order", "why_tests_cant": "all trees", "anchors": ["examples/dtree_experiment.py:get_all_nodes"]}
{"id": "C61", "title": "Initial paths form a valid tree", "statement": "The paths of get_all_leaves_paths are consistent, one per leaf, their cost is the largest number of rows of a single target following them and the target attains it; so the initial master problem is feasible with exactly these paths selected.", "quantifier": "every candidate assignment and data set", "why_tests_cant": "all data", "anchors": ["examples/dtree_experiment.py:get_all_leaves_paths", "col_gen_estimator/_dtree_classifier.py:DTreeMasterProblem.generate_mp"]}
{"id": "C62", "title": "Every node keeps a candidate split in the experiment", "statement": "After split reduction with the experiment's quotas every node of a tree of any allowed depth still has at least one candidate split.", "quantifier": "every depth", "why_tests_cant": "tests never use depth 7", "anchors": ["examples/dtree_experiment.py:main", "examples/dtree_experiment.py:reduce_splits"]}
{"id": "C63", "title": "Every generated column is offered exactly once", "statement": "In a run of fit, the columns returned by a generate_columns call are passed to add_column each exactly once and in the returned order before the next generate_columns, solve_rmp or solve_ip call; if the run raises in between, those offered so far are an initial segment.", "quantifier": "every plug-in, every number of levels and iterations, runs that raise included", "why_tests_cant": "tests use one or two plug-ins and few iterations", "anchors": ["col_gen_estimator/_col_gen_classifier.py:ColGenClassifier.fit"]}
{"id": "C64", "title": "fit raises only what a plug-in raised", "statement": "fit ends with an exception exactly when a plug-in call raised it (and then that call is the last one of the run), or all labels are equal (ValueError, before any plug-in call) or solve_ip returned False (AssertionError); no plug-in exception is swallowed or replaced.", "quantifier": "every plug-in and exception", "why_tests_cant": "fault injection at every call site of every iteration is infeasible", "anchors": ["col_gen_estimator/_col_gen_classifier.py:ColGenClassifier.fit"]}
{"id": "C65", "title": "num_improving_iter_ counts the improving iterations", "statement": "After fit, num_improving_iter_ is the number of rmp_objective_improved calls of this run that returned True, hence at most iter_; nothing is carried over from an earlier fit.", "quantifier": "every plug-in, every run, refits included", "why_tests_cant": "counter drift appears only for particular sequences of iterations", "anchors": ["col_gen_estimator/_col_gen_classifier.py:ColGenClassifier.fit"]}
{"id": "C66", "title": "Training a Boolean decision rule on two classes always succeeds", "statement": "fit of a newly constructed BooleanDecisionRuleClassifier (with or without heuristic level) on data with exactly two classes returns normally and leaves the estimator fitted, whatever the iteration and time limits are, provided the LP duals are dual feasible up to 1e-6, the pricing answers are feasible solutions and the final integer program is not reported infeasible: no assertion of the master or of the pricing problems can fail.", "quantifier": "all data sets, labels with two classes, limits, penalties, complexities, solver answers meeting the contract, clocks", "why_tests_cant": "The assertions (duplicate clause, negative duals, solver status) depend on every intermediate solver answer.", "anchors": ["_bdr_classifier.py:236-275", "_bdr_classifier.py:558-608", "_bdr_classifier.py:725-778", "_col_gen_classifier.py:329-437"]}
{"id": "C67", "title": "The trained rule respects the complexity bound and beats constant predictions", "statement": "After a fit that returned normally and whose final integer program was solved to optimality, the sum over the clauses of the explanation of (1 + number of features) is at most C, and the weighted training error (p per missed positive, 1 per accepted negative) is at most p times the number of positives and, if C >= 1, at most the number of negatives. With p = 1, predict on the training rows makes at most as many errors as any constant prediction.", "quantifier": "all data sets with two classes, complexities, penalties, limits, clocks, LP and pricing answers", "why_tests_cant": "It concerns the classifier as a whole for every execution of the column generation loop, including runs cut by limits.", "anchors": ["_bdr_classifier.py:311-353", "_bdr_classifier.py:677-703", "_col_gen_classifier.py:329-437"]}
{"id": "C68", "title": "The duals of the decision tree master price its columns, and pricing knows its cuts", "statement": "When solve_rmp of DTreeMasterProblem solves its program to optimality, the reduced cost of every path variable, and of the variable add_column would create for any further well-formed path, equals the cost of the path minus the returned duals of its leaf, of the rows that follow it, of the cuts that follow it and of its node-split pairs. The lists of cut rows returned by successive calls, concatenated, are exactly the cuts of the model, in the order of their duals.", "quantifier": "all depths, data, candidate splits, histories of calls, solver answers and cut solutions, all further paths", "why_tests_cant": "It relates two separately coded traversals of the rows and splits for every possible column and every history of added columns and cuts.", "anchors": ["_dtree_classifier.py:840-905", "_dtree_classifier.py:1024-1113", "_dtree_classifier.py:1166-1300"]}
{"id": "C69", "title": "Small reduced costs bound the full linear relaxation of the tree program", "statement": "If the LP answer of solve_rmp is optimal (duals feasible up to tol, dual objective equal to the reported one) and further columns have reduced cost at most eps for the returned duals, then the linear relaxation with all these columns added has optimum at most rmp_objective_ + 2^depth * eps + (2^depth - 1) * tol.", "quantifier": "all instances, histories, dual answers, sets of further columns", "why_tests_cant": "A statement about all feasible points of a program with exponentially many columns.", "anchors": ["_dtree_classifier.py:620-717", "_dtree_classifier.py:840-905", "_dtree_classifier.py:1024-1113"]}
{"id": "C70", "title": "When exact pricing finds nothing, no decision tree is better than the bound", "statement": "If solve_rmp was optimal and every leaf's integer pricing problem (DTreeSubProblem or DTreeSubProblemSat), updated with its duals, is solved to optimality and generates no path, then every decision tree with candidate splits at its nodes and any classes at its leaves classifies at most rmp_objective_ + 2^depth * eps + (2^depth - 1) * tol training rows (by weight) correctly, where eps is 1e-6 for DTreeSubProblem and 1e-6 plus the rounding error for DTreeSubProblemSat.", "quantifier": "all instances, histories, solver answers, all trees over the candidate splits", "why_tests_cant": "It quantifies over all decision trees and combines the master problem, the cuts and all pricing problems.", "anchors": ["_dtree_classifier.py:535-1163", "_dtree_classifier.py:1166-1499", "_dtree_classifier.py:1588-1918"]}
{"id": "C71", "title": "Training a decision tree always succeeds and ends", "statement": "fit of a newly constructed DTreeClassifier (depth >= 1, initial paths containing one tree over candidate splits, at least two classes) returns normally for every iteration and time limit, after at most N + 1 rounds of column generation, where N = number of initial paths + 2^depth * (number of splits)^depth * (total weight of the kept rows + 1), provided the LP duals are feasible up to a tolerance of at most 1e-6, the pricing answers are feasible solutions and the integer master problem is not reported infeasible. No IndexError, KeyError or assertion can occur in between.", "quantifier": "all depths, data sets, labels with two classes, candidate splits, limits, random draws, solver answers meeting the contract, clocks, both pricing classes, with and without heuristic and cuts", "why_tests_cant": "Every intermediate solver answer and random draw influences the loop; the list indexings between master, cuts, heuristics and pricing problems must stay aligned for all histories.", "anchors": ["_dtree_classifier.py:2370-2512", "_col_gen_classifier.py:329-437", "_dtree_classifier.py:535-1163"]}
{"id": "C72", "title": "The fitted decision tree is a tree and predict follows it", "statement": "After a successful fit the selected paths are, in some order, the root-to-leaf paths of a single full binary tree with one candidate split per node, exactly one path per leaf, each of which is an initial path or a generated path whose cost does not overstate its hits; predict codes every row, also unseen ones, with the target of the leaf in which the row ends.", "quantifier": "all instances, runs and rows", "why_tests_cant": "Consistency of the selected paths comes from the integer program over all generated columns, and must hold for arbitrary later rows.", "anchors": ["_dtree_classifier.py:1115-1163", "_dtree_classifier.py:2519-2545", "_col_gen_classifier.py:329-437"]}
{"id": "C73", "title": "The fitted tree is at least as good as every initial tree", "statement": "After a successful fit whose integer master problem was solved to optimality, the costs of the selected paths sum to at least the costs of any tree contained in the initial paths, and, if the initial costs do not overstate the hits, this sum is at most the weighted number of training rows that predict codes correctly.", "quantifier": "all instances and runs, all trees contained in the initial paths", "why_tests_cant": "It compares the final classifier with every starting tree for all executions of the loop, including those cut by limits and those adding cuts.", "anchors": ["_dtree_classifier.py:535-1163", "_dtree_classifier.py:2370-2545", "_col_gen_classifier.py:329-437"]}
{"id": "C74", "title": "mp_optimal_ certifies a bound on all decision trees", "statement": "If fit ends with mp_optimal_ true and the exact pricing problems were solved to optimality, every decision tree with candidate splits at its nodes and any classes at its leaves classifies at most rmp_objective_ + 2^depth * eps + (2^depth - 1) * tol training rows (by weight) correctly, where eps is 1e-6 plus the rounding error of the scaled objective for the CP-SAT pricing problem, and 1e-6 for use_old_sp with unweighted rows.", "quantifier": "all instances, runs and decision trees over the candidate splits", "why_tests_cant": "It quantifies over all decision trees and all executions of the column generation loop.", "anchors": ["_col_gen_classifier.py:329-437", "_dtree_classifier.py:535-1163", "_dtree_classifier.py:1588-1918", "_dtree_classifier.py:2071-2367"]}
{"id": "C75", "title": "Merging of rows is complete without timeout", "statement": "When the time limit does not strike in aggressive mode, of two rows that follow the same candidate paths at most one is kept in the master problem, and if they have the same label at most one is kept in the pricing problems. The experiment uses aggressive mode exactly for at least 5000 training rows with time left: with fewer rows, or after the time for the preparation, every row stays in the pricing problems with weight 1.", "quantifier": "every data set and tree with a candidate at every node", "why_tests_cant": "all pairs of rows in all data sets", "anchors": ["examples/dtree_experiment.py:preprocess"]}
{"id": "C76", "title": "The prepared paths are correct, numbered and different", "statement": "Every path that the preparation of the experiment hands to DTreeClassifier runs from the root to its leaf over existing splits, its cost is the largest number of training rows of one label that follow it and its target is such a label; ids are positions; no two paths agree in leaf, target, cost and splits; the first 2^depth paths are one per leaf of a single tree; further paths use only splits that are candidates of some node.", "quantifier": "all CART trees, depths >= 1, data sets", "why_tests_cant": "all tree shapes and data sets; float ties in CART", "anchors": ["examples/dtree_experiment.py:main", "examples/dtree_experiment.py:get_all_leaves_paths", "examples/dtree_experiment.py:get_path_for_leaf"]}
{"id": "C77", "title": "The preparation succeeds and meets the requirements of fit", "statement": "For fitted trees of at most the given depth with at least one split, the preparation raises no exception, and its result meets all assumptions under which fit succeeds whenever the paths use candidate splits; without any split in the trees the preparation raises an IndexError.", "quantifier": "all CART trees, depths >= 1, data sets, clocks", "why_tests_cant": "interplay of all helper functions for all inputs", "anchors": ["examples/dtree_experiment.py:main"]}
{"id": "C78", "title": "Initial paths use candidate splits", "statement": "Every path handed to DTreeClassifier by the experiment uses at each of its nodes a candidate split of this node.", "quantifier": "all CART trees, depths >= 1, data sets", "why_tests_cant": "needs rare coincidences of splits of different trees", "anchors": ["examples/dtree_experiment.py:reduce_splits", "examples/dtree_experiment.py:get_path_for_leaf"]}
{"id": "C79", "title": "The experiment's classifier is at least as good as the initial tree", "statement": "After the preparation (with paths over candidate splits) and fit with exact integer solutions, predict on the training data raises no exception and classifies at least as many rows correctly as the initial tree; if mp_optimal_ is set and pricing is exact, no tree over the candidate splits classifies more rows correctly than rmp_objective_ plus the tolerances.", "quantifier": "all CART trees, depths, data sets, solver answers that meet the contracts, iteration and time limits", "why_tests_cant": "optimality over all trees and executions", "anchors": ["examples/dtree_experiment.py:main", "col_gen_estimator/_dtree_classifier.py:DTreeClassifier.predict"]}
{"id": "C80", "title": "A split is selected at most once in a generated path", "statement": "Every path returned by a pricing problem uses each split at no more than one of its nodes (constraint (5) of the documented pricing problem).", "quantifier": "all trees, candidate splits, data, duals, solver answers", "why_tests_cant": "needs shared candidate splits and particular duals", "anchors": ["col_gen_estimator/_dtree_classifier.py:DTreeSubProblem.create_submip", "col_gen_estimator/_dtree_classifier.py:DTreeSubProblemHeuristic.generate_columns"]}
{"id": "C81", "title": "mp_optimal_ with use_old_sp=True bounds all trees", "statement": "If fit with use_old_sp=True and exact solvers ends with mp_optimal_, no tree over the candidate splits has more weighted training hits than rmp_objective_ plus the tolerances, whatever the weights of merged rows.", "quantifier": "all trees, data sets, row weights, solver answers that meet the contracts, iteration and time limits", "why_tests_cant": "optimality over all trees and executions", "anchors": ["col_gen_estimator/_dtree_classifier.py:DTreeSubProblemOld", "col_gen_estimator/_dtree_classifier.py:DTreeClassifier"]}
{"id": "C82", "title": "Reported times are consistent", "statement": "After fit returns, with a clock that does not run backwards and without a restart of the timer, time_spent_master_, every entry of time_spent_sp_, time_add_col_ and time_spent_master_ip_ are nonnegative and their total is at most time_elapsed_.", "quantifier": "all plug-ins, shapes of subproblems, limits, clocks", "why_tests_cant": "tests do not control the clock", "anchors": ["col_gen_estimator/_col_gen_classifier.py:ColGenClassifier.fit"]}
{"id": "C83", "title": "Without a time limit the clock has no influence", "statement": "With time_limit <= 0, two runs of fit on the same objects with different clocks both end or both do not end; when they end, they end alike (normally or with the same exception), all attributes that are not measured times agree, the same calls to master and subproblems were made with the same results, and the objects end in the same state.", "quantifier": "all plug-ins, shapes of subproblems, parameters with time_limit <= 0, pairs of clocks", "why_tests_cant": "tests run with the one clock of the machine", "anchors": ["col_gen_estimator/_col_gen_classifier.py:ColGenClassifier.fit"]}
{"id": "C84", "title": "mp_optimal_ of the Boolean rule classifier bounds the training loss of all rules", "statement": "If fit of the Boolean rule classifier with exact solvers and an exact subproblem for clauses of size up to C ends with mp_optimal_, then no rule of complexity at most C has a smaller training loss (p per missed positive row, 1 per wrongly accepted negative row) than the value of the last restricted master LP, up to 1e-6 * C.", "quantifier": "all binary data sets, rules of complexity at most C, solver answers that meet the contracts, iteration and time limits", "why_tests_cant": "optimality over all rules and executions", "anchors": ["col_gen_estimator/_bdr_classifier.py:BDRMasterProblem", "col_gen_estimator/_bdr_classifier.py:BDRSubProblem", "col_gen_estimator/_bdr_classifier.py:BooleanDecisionRuleClassifier"]}
{"id": "C85", "title": "The tuner returns a worse value a bounded number of times", "statement": "In the exploit phase, when get_best_value and adjust_score alternate and c_fac >= 0: if all scores of value i lie in [lo_i, hi_i], all scores of value j are at least lo_j, and hi_i + (hi_i - lo_i)/10 + c_fac/n < lo_j, then value i is returned at most max(4, n) times, however many rounds follow. If j is better than every other value in this sense, all but (number of values - 1) * max(4, n) rounds return j.", "quantifier": "all earlier histories of calls, numbers of rounds, scores within the intervals, random draws", "why_tests_cant": "unbounded number of rounds, all draws and scores", "anchors": ["col_gen_estimator/_parameter_tuner.py:Parameter.get_best_value", "col_gen_estimator/_parameter_tuner.py:Parameter.adjust_score"]}
{"id": "C86", "title": "Only the order of the class labels matters", "statement": "If the labels of y are renamed by a function that keeps their order, fit makes the same calls, ends or raises alike and sets the same attributes, except that classes_ is renamed; predictions of the Boolean rule and the decision tree classifier are renamed in the same way.", "quantifier": "all label vectors, order preserving renamings, plug-ins, limits, data to predict", "why_tests_cant": "relates pairs of runs for all label vectors", "anchors": ["col_gen_estimator/_col_gen_classifier.py:ColGenClassifier.fit", "col_gen_estimator/_bdr_classifier.py:BooleanDecisionRuleClassifier.predict", "col_gen_estimator/_dtree_classifier.py:DTreeClassifier.predict"]}
{"id": "C87", "title": "A refit that raises keeps the fitted Boolean rule classifier", "statement": "If fit raises on a Boolean rule classifier that was fitted before, predict returns the same as before that call.", "quantifier": "all first and second data sets, solver answers, limits, data to predict", "why_tests_cant": "all pairs of data sets and all ways to raise", "anchors": ["col_gen_estimator/_col_gen_classifier.py:ColGenClassifier.fit", "col_gen_estimator/_bdr_classifier.py:BooleanDecisionRuleClassifier.predict"]}
{"id": "C88", "title": "The cut search misses no violated bound", "statement": "When the run of the cut generation model passes an optimal solution to the callback and add_cuts returns no cut, then for every row of numbers (of the data or not) the stored LP values of the paths the row follows sum to at most 1 + (1 + number of paths)/1000000; if the stored values are integers, to at most 1.", "quantifier": "all trees, paths, histories of calls of the master problem, LP solutions, rows", "why_tests_cant": "all rows of numbers and all fractional solutions; the scaled integer objective loses digits", "anchors": ["col_gen_estimator/_dtree_classifier.py:DTreeMasterProblem.add_cuts", "col_gen_estimator/_dtree_classifier.py:CutGenerator.on_solution_callback"]}
{"id": "C89", "title": "Cuts are never repeated and the cut rounds end clean", "statement": "While the stored LP solution satisfies the constraints of the master, add_cuts returns no pattern that is already a cut. In a solve_rmp with cut rounds whose limit on rounds exceeds 2^(number of splits) + number of rows, with generate_cuts on, if the last LP solve is optimal then the stored solution gives every row of numbers a sum of at most 1 + (1 + number of paths)/1000000.", "quantifier": "all trees, paths, histories of calls, LP and cut solutions, rows", "why_tests_cant": "needs all rounds and all solver answers; a repeated cut would loop until the limit", "anchors": ["col_gen_estimator/_dtree_classifier.py:DTreeMasterProblem.solve_rmp", "col_gen_estimator/_dtree_classifier.py:DTreeMasterProblem.add_cuts", "col_gen_estimator/_dtree_classifier.py:DTreeMasterProblem.add_beta_cuts"]}
{"id": "C90", "title": "The numbers of the experiment's result report fit together", "statement": "After a fit of the experiment's classifier that returns: the reported columns of the heuristic and of the exact pricing problems together are the paths added to the initial ones; the reported hit rate of the heuristic is its reported number of columns divided by 100 times the number of its calls (so every generated column was accepted), it is between 0 and 1 and the calls are at most the reported iterations; with the experiment's cut setting the reported number of cuts is the length of added_rows; the accuracies are between 0 and 1; in real time all reported times are nonnegative and the parts add up to at most the training time.", "quantifier": "all constructor arguments, data, solver answers (also wrong ones), random draws, clocks, limits", "why_tests_cant": "relates counters kept in four objects over whole runs with arbitrary solver behaviour", "anchors": ["examples/dtree_experiment.py:main", "examples/dtree_experiment.py:Results", "col_gen_estimator/_dtree_classifier.py:DTreeSubProblemHeuristic.generate_columns", "col_gen_estimator/_dtree_classifier.py:DTreeMasterProblem.solve_rmp", "col_gen_estimator/_col_gen_classifier.py:ColGenClassifier.fit"]}
{"id": "C91", "title": "The experiment is at least as accurate on the training data as the CART tree it starts from", "statement": "The initial tree of the preparation classifies at least as many training rows correctly as the CART tree fitted to all data, whatever labels the leaves of that tree have. Hence, if all prepared paths use candidate splits of their nodes and the integer program is solved to optimality, the fitted classifier does so as well (in particular for depth at most 6, no further trees and fewer random trees than candidates per node). Without the condition on the paths the fitted classifier can be worse than the CART tree.", "quantifier": "all CART trees, leaf labels, depths, data sets, solver answers that meet the contracts, iteration and time limits", "why_tests_cant": "compares two trained classifiers over all data sets and solver behaviours", "anchors": ["examples/dtree_experiment.py:main", "examples/dtree_experiment.py:get_all_nodes", "examples/dtree_experiment.py:merge_all_nodes", "examples/dtree_experiment.py:get_all_leaves_paths", "col_gen_estimator/_dtree_classifier.py:DTreeClassifier.predict"]}
{"id": "C92", "title": "A tree classifier can be fitted again on the same data, which continues the first fit and never makes the tree worse", "statement": "After constructing a DTreeClassifier, fit can be called any number of times on the same data with any limits in between: every call returns without an exception after a number of iterations that does not depend on the calls before. No path of the master problem is lost; the selected paths always form one tree that predict walks down; the bound that mp_optimal_ gives for the first fit holds after every later one. If the integer program is solved to optimality, the costs of the selected paths never fall from one call to the next, and they are a lower bound of the training hits of all later trees.", "quantifier": "all constructor arguments, data with two classes, sequences of calls, limits, random draws, clocks, solver answers that meet the contracts", "why_tests_cant": "sequences of fits of any length, and the state of master and pricing problems that they share", "anchors": ["col_gen_estimator/_col_gen_classifier.py:ColGenClassifier.fit", "col_gen_estimator/_dtree_classifier.py:DTreeMasterProblem.generate_mp", "col_gen_estimator/_dtree_classifier.py:DTreeMasterProblem.solve_ip", "col_gen_estimator/_dtree_classifier.py:DTreeSubProblemSat.update_subproblem", "col_gen_estimator/_dtree_classifier.py:DTreeSubProblemHeuristic.update_subproblem"]}
{"id": "C93", "title": "The trained rule is a best rule over the clauses that were generated", "statement": "If fit of a BooleanDecisionRuleClassifier returned and the final integer program was solved to optimality, the rule consists of clauses of the master problem, its complexity is at most max_complexity, and among all rules over clauses of the master problem within that bound (repetitions allowed) none has a smaller Hamming loss (weighted missed positives plus, for each negative row, the number of clauses it satisfies). Hence in terms of training errors it is at least as good as every such rule whose clauses do not overlap on negative rows, in particular as every single clause.", "quantifier": "all data with at most two classes, bounds, penalties, pricing levels, limits, solver answers, rules over generated clauses", "why_tests_cant": "compares with all rules over all sets of generated clauses", "anchors": ["col_gen_estimator/_bdr_classifier.py:BDRMasterProblem.solve_ip", "col_gen_estimator/_bdr_classifier.py:BDRMasterProblem.add_column", "col_gen_estimator/_col_gen_classifier.py:ColGenClassifier.fit"]}
{"id": "C94", "title": "A decision rule classifier can be fitted again on the same data, which continues the first fit and never makes the rule worse", "statement": "After constructing a BooleanDecisionRuleClassifier, fit can be called any number of times on the same data with any limits in between, also after calls that raised: every call ends after at most 2^n master solutions, and with two classes and solvers that meet their contracts it returns without an exception and never offers a clause that the master problem already has. No clause of the master problem is ever dropped, on whatever data fit is called. If the integer programs are solved to optimality, the Hamming loss of the rule never rises from one call to the next, the rule keeps the complexity bound and makes at most as many training errors as the best constant prediction. A later fit that ends with mp_optimal_ gives the same lower bound for all rules as a first one.", "quantifier": "all data with two classes, sequences of calls, bounds, penalties, pricing levels, limits, clocks, solver answers that meet the contracts", "why_tests_cant": "sequences of fits of any length, and the state of master and pricing problems that they share", "anchors": ["col_gen_estimator/_bdr_classifier.py:BDRMasterProblem.generate_mp", "col_gen_estimator/_bdr_classifier.py:BDRMasterProblem.solve_ip", "col_gen_estimator/_bdr_classifier.py:BDRSubProblem.generate_columns", "col_gen_estimator/_col_gen_classifier.py:ColGenClassifier.fit"]}
{"id": "C95", "title": "The tree classifier sees the data only through the answers to the split questions", "statement": "Change the data and the features and thresholds of the splits together so that every training row answers every split question as before, two splits concern the same feature exactly if they did before, and the thresholds of a feature stand in the same order. Then fit of a DTreeClassifier makes exactly the same run whatever the solvers, random draws and clock do: it ends or not as before, returns or raises the same exception, has the same attributes, makes the same calls with the same results and selects the same paths; predict returns the same labels on rows that answer the questions alike. In particular this holds when features are stored in other columns and on other strictly increasing scales, and the row sets that the experiment stores in the splits stay the same.", "quantifier": "all constructor arguments with known splits, data, labels, limits, solver answers, random draws, clocks, recodings", "why_tests_cant": "relates two runs of arbitrary length for all recodings and all solver behaviours", "anchors": ["col_gen_estimator/_dtree_classifier.py:DTreeMasterProblem.generate_mp", "col_gen_estimator/_dtree_classifier.py:row_satisfies_path", "col_gen_estimator/_dtree_classifier.py:DTreeSubProblemSat.create_submip", "col_gen_estimator/_dtree_classifier.py:DTreeClassifier.predict", "examples/dtree_experiment.py:add_rows_to_splits"]}
{"id": "C96", "title": "The command line of the experiment means what its options say", "statement": "Every option of dtree_experiment.py may be given in its short form (separate or glued value) or in its long form (separate value or with =, abbreviated as long as the abbreviation is unique), in any order and repeatedly; the settings are the defaults with the last value of each option, and arguments after the first non-option are ignored. A wrong option, an ambiguous abbreviation or a missing value exits with code 2, whatever precedes it. Otherwise the first -h exits with code 0 and the first value that int() refuses raises ValueError, whichever comes first. For every command line that is accepted the preparation limit is a third of the time limit, the header row is absent or not negative, and the results directory starts with results/ and ends with /. int() accepts exactly the integer literals (white space, an optional sign, digits with single underscores between digits, white space), returns their value, and reads back what str() writes.", "quantifier": "all argument lists; all sequences of well-formed options, values and styles", "why_tests_cant": "argument lists of any length and content", "anchors": ["examples/dtree_experiment.py:main"]}
{"id": "C97", "title": "Two experiments write the same result file exactly if results directory, name of the training file and depth agree", "statement": "The name of the result file is the same for two settings if and only if the results directory, the file name of the training file without its directories, and the depth are the same. In particular no two depths share a file, and experiments that differ only in the directory of the training file, test file or limits overwrite each other.", "quantifier": "all pairs of settings", "why_tests_cant": "injectivity over all file names and depths", "anchors": ["examples/dtree_experiment.py:main"]}
{"id": "C98", "title": "The time limit of the experiment covers preparation and training together", "statement": "Preparation and training together stop after the time limit: the classifier gets what the preparation left over, and it stops when both together exceed the limit. A limit of at most 0 switches all limits off.", "quantifier": "all settings, clocks, data, trees, solver answers", "why_tests_cant": "depends on clock readings", "anchors": ["examples/dtree_experiment.py:main", "col_gen_estimator/_col_gen_classifier.py:ColGenClassifier.fit"]}
{"id": "C99", "title": "Features are matched by column name and labels are numbered in increasing order", "statement": "The classifier is trained on the training table without its last column. Of a test row it gets the cells with the names of the training columns, in their order; other columns and the order of the test columns do not matter. A missing column raises KeyError and an unknown test label ValueError before training. Labels become 0, ..., k-1 in increasing order, can be decoded again, and accuracies computed with the numbers are those of the labels in the tables.", "quantifier": "all rectangular tables with distinct column names", "why_tests_cant": "all tables and column orders", "anchors": ["examples/dtree_experiment.py:main"]}
{"id": "C100", "title": "A run of the experiment with valid inputs writes a result file in which the classifier is not worse than CART on the training data", "statement": "With readable rectangular tables, known labels, at least two classes, a positive depth, trees as scikit-learn fits them, and solvers that meet their contracts, the program ends without an exception and writes the result file, in which the training accuracy is at least that of CART and all accuracies are those of the labels in the files. A depth of 0 or less and unknown labels end the program before training.", "quantifier": "all command lines, tables, trees, clocks, random draws, solver answers that meet the contracts", "why_tests_cant": "whole program over all inputs and solver behaviours", "anchors": ["examples/dtree_experiment.py:main", "col_gen_estimator/_dtree_classifier.py:DTreeClassifier.predict"]}
{"id": "C101", "title": "Rounding noise in solver answers does not change what is learnt", "statement": "When the values and duals that a solver reports differ from an exact answer by at most a small error (below 1/2 for 0/1 variables), the classifiers behave as with the exact answer: tree pricing generates the same path with a cost off by at most the error times the weights, rule pricing generates the same clause, solve_ip selects the same clauses and paths, and fit does not raise.", "quantifier": "all pricing problems, master problems, answers, errors below the bound", "why_tests_cant": "the errors of a floating point solver cannot be enumerated or provoked", "anchors": ["col_gen_estimator/_bdr_classifier.py:BDRSubProblem.generate_columns", "col_gen_estimator/_bdr_classifier.py:BDRMasterProblem.solve_ip", "col_gen_estimator/_dtree_classifier.py:DTreeSubProblem.generate_columns", "col_gen_estimator/_dtree_classifier.py:DTreeMasterProblem.solve_ip"]}
{"id": "C102", "title": "A certified rule run is as good as any other run", "statement": "However fit of BooleanDecisionRuleClassifier ends, the clauses of the master are proper clauses and none is larger than the pricing problems allow. If fit ended with mp_optimal_ under exact LP and pricing answers, the LP value of its final master is at most (up to 1e-6 * C) the LP value of the final master of every other call of fit that returned, certified or not: with other solvers, pricing levels, limits and clocks, on the same labelled rows in any order or with fewer features, with a complexity bound that is not larger and a weight of missed rows that is not smaller. So two certified runs on the same labelled rows agree up to 1e-6 * C.", "quantifier": "all pairs of data sets of which one contains the other, all solvers, pricing levels, limits, clocks and parameters as above", "why_tests_cant": "it relates every pair of runs over all solvers, row orders and settings; a test compares a few", "anchors": ["col_gen_estimator/_bdr_classifier.py:BDRMasterProblem.solve_rmp", "col_gen_estimator/_bdr_classifier.py:BDRMasterProblem.add_column", "col_gen_estimator/_col_gen_classifier.py:ColGenClassifier.fit"]}
{"id": "C103", "title": "The rule classifier sees numbers only as zero or not zero", "statement": "Replace non-zero entries of the data by any other non-zero numbers (e.g. binarise). Then fit of BooleanDecisionRuleClassifier, on a new or an already fitted classifier, makes the same run whatever the solvers and the clock do: it returns, raises or loops alike, all attributes, calls and results agree, the solver models are equal and the same rule is learnt. predict returns the same labels for rows whose entries are zero at the same places.", "quantifier": "all data, labels, classifier states, pricing levels, limits, solvers, clocks", "why_tests_cant": "it relates all pairs of data sets with the same zero pattern under every solver behaviour", "anchors": ["col_gen_estimator/_bdr_classifier.py:BDRMasterProblem.satisfies_clause", "col_gen_estimator/_bdr_classifier.py:BDRSubProblem.create_submip", "col_gen_estimator/_bdr_classifier.py:BDRHeuristic.generate_columns", "col_gen_estimator/_bdr_classifier.py:BooleanDecisionRuleClassifier.predict"]}
{"id": "C104", "title": "No access of the tree classifier fails", "statement": "Let the data have rows and every feature that the splits ask for, the constructor arguments be consistent and the solvers sound. Then no list index, dictionary key or method call on a None entry fails, and nothing is divided by zero, in any call that fit of DTreeClassifier makes to its master problem, heuristic and exact pricing problems, in the first call of fit or any later one on the same data: the plug-ins with every access checked make exactly the runs of the model without checks, return normally, and predict raises no access error for rows that have all features. Without one of the features fit raises IndexError.", "quantifier": "all depths, trees, splits, paths, data, labels, settings, limits, sound solvers, random draws, clocks; any number of calls of fit", "why_tests_cant": "an access is safe only because of what all earlier calls stored; tests see a few histories, and none with many cut rounds", "anchors": ["col_gen_estimator/_dtree_classifier.py:DTreeMasterProblem.generate_mp", "col_gen_estimator/_dtree_classifier.py:DTreeMasterProblem.add_column", "col_gen_estimator/_dtree_classifier.py:DTreeMasterProblem.solve_rmp", "col_gen_estimator/_dtree_classifier.py:DTreeSubProblemSat.generate_columns", "col_gen_estimator/_dtree_classifier.py:DTreeSubProblemOld.generate_columns", "col_gen_estimator/_dtree_classifier.py:DTreeSubProblemHeuristic.generate_columns", "col_gen_estimator/_dtree_classifier.py:DTreeClassifier.predict"]}
{"id": "C105", "title": "A second tree classifier from the same argument objects", "statement": "Construct a DTreeClassifier, call fit any number of times, and construct a second classifier from the same path, split, node and row objects (or copy.deepcopy of them). Its constructor accepts them, its fit ends and raises nothing, and its tree is at least as good as that of the first. What fit does to the objects: the list of initial paths keeps its paths, marked, and gets the generated ones appended; splits keep everything but the cut sets; every data row that was passed records the ids of the paths that it follows.", "quantifier": "all depths, trees, splits, paths, data, labels, settings, sound solvers, random draws, clocks; any number of calls of fit before", "why_tests_cant": "the effect depends on which paths the first classifier generated and shows only in a later cut round of the second; each test builds its objects anew", "anchors": ["col_gen_estimator/_dtree_classifier.py:DTreeMasterProblem.__init__", "col_gen_estimator/_dtree_classifier.py:DTreeMasterProblem.compute_satisfied_paths", "col_gen_estimator/_dtree_classifier.py:DTreeMasterProblem.add_column", "col_gen_estimator/_dtree_classifier.py:DTreeMasterProblem.add_cuts", "col_gen_estimator/_dtree_classifier.py:DTreeMasterProblem.violated_row_constraint", "col_gen_estimator/_dtree_classifier.py:DTreeClassifier.__init__"]}
{"id": "C106", "title": "The classifiers follow the scikit-learn parameter protocol", "statement": "For both classifiers: get_params after construction returns the constructor arguments; set_params with a known name succeeds, is seen by get_params and is used by the next fit, and an unknown name raises ValueError and changes nothing; clone returns an unfitted classifier that trains like one newly constructed with the current parameters. In particular after set_params(C=c) the next fit trains a rule of complexity at most c, and after set_params(max_iterations=k) it performs at most k iterations.", "quantifier": "all constructor arguments, sequences of fit and set_params calls, data, labels, solvers, clocks, copy functions", "why_tests_cant": "the tests construct each classifier with its final arguments; a parameter search that compares equal candidates raises nothing and prints plausible scores, and get_params of the tree classifier is never called", "anchors": ["col_gen_estimator/_bdr_classifier.py:BooleanDecisionRuleClassifier.__init__", "col_gen_estimator/_bdr_classifier.py:BooleanDecisionRuleClassifierWithHeuristic.__init__", "col_gen_estimator/_dtree_classifier.py:DTreeClassifier.__init__", "col_gen_estimator/_col_gen_classifier.py:ColGenClassifier.__init__", "col_gen_estimator/_col_gen_classifier.py:ColGenClassifier.fit"]}
{"id": "C107", "title": "No list or dictionary access of the rule classifier fails", "statement": "On a rectangular data set with one label per row no list or dictionary access of BooleanDecisionRuleClassifier(.WithHeuristic).fit fails, whatever the solvers answer, in the first or any later call on the same data: fit raises only AssertionError, or ValueError for a single class, and returns normally for two classes and solvers that keep their contracts. predict raises IndexError exactly if for some row the evaluation of the rule from left to right comes to a feature that the row does not have, so never for rows with at least as many features as the training data. A pricing problem used before on other data raises IndexError exactly if there are now more features, more rows, or more rows of class 1 than duals.", "quantifier": "all rectangular data sets and labels, solver answers, parameters, numbers of fit calls, rules and rows", "why_tests_cant": "the lists that are indexed grow with the run (variables, clauses, duals) and the indices come from the answers of the solvers; the tests use data sets of three or four rows", "anchors": ["col_gen_estimator/_bdr_classifier.py:BDRMasterProblem.generate_mp", "col_gen_estimator/_bdr_classifier.py:BDRMasterProblem.add_column", "col_gen_estimator/_bdr_classifier.py:BDRMasterProblem.solve_ip", "col_gen_estimator/_bdr_classifier.py:BDRMasterProblem.satisfies_clause", "col_gen_estimator/_bdr_classifier.py:BDRSubProblem.generate_columns", "col_gen_estimator/_bdr_classifier.py:BDRHeuristic.generate_columns", "col_gen_estimator/_bdr_classifier.py:BooleanDecisionRuleClassifier.predict"]}
{"id": "C108", "title": "A certified tree run is as accurate as any other run", "statement": "If DTreeClassifier.fit ends with mp_optimal_ and its CP-SAT pricing problems were solved to optimality, then no complete decision tree over the candidate questions of its nodes, of its depth or less and with any labels, is right for more training rows (counted with their weights) than rmp_objective_ plus the tolerances of the solver. If moreover the selected paths are worth more than this bound minus one, the fitted classifier is right for at least as many training rows as any other fitted tree classifier that is not deeper and whose candidate questions are among its own, whatever data, solvers, initial paths, cuts, limits, preparation or numbering of the splits that one was fitted with.", "quantifier": "all trees, data sets, labels, solver answers within their contracts, arguments of both classifiers, earlier fit calls", "why_tests_cant": "a comparison with all trees of a depth is exponential, and the other runs differ in everything from data to solver; the tests check one small data set with one run", "anchors": ["col_gen_estimator/_dtree_classifier.py:DTreeClassifier.__init__", "col_gen_estimator/_dtree_classifier.py:DTreeClassifier.predict", "col_gen_estimator/_dtree_classifier.py:DTreeMasterProblem.solve_rmp", "col_gen_estimator/_dtree_classifier.py:DTreeMasterProblem.solve_ip", "col_gen_estimator/_dtree_classifier.py:DTreeSubProblemSat.generate_columns", "col_gen_estimator/_col_gen_classifier.py:ColGenClassifier.fit"]}
{"id": "C109", "title": "The tuner is safe in floating point", "statement": "With rounded arithmetic (every operation followed by any monotone rounding to binary floating point numbers, in particular IEEE binary64 to nearest even): after any sequence of push and clear of floating point values RunningStat counts right, its mean lies between the smallest and largest value since the last clear, its variance is never negative and standard_deviation never raises; the mean differs from the exact one by at most n (3 u M + 2 eta) for n values of size at most M, relative rounding error u and underflow error eta. After any history with at least one value get_best_value never raises and returns a registered value: the bucket is never empty. In the exploit phase it can return exactly the values with fewer than four scores if there are any, otherwise exactly those whose computed final score plus a tenth of the computed standard deviation reaches every final score. The explore counter is not affected by rounding. The gap of solve_model is in [0, 1] if objective and bound are integers or have no opposite signs; otherwise the product may underflow and the gap be 2. Under that condition and with a wall time within the limit the score passed to adjust_score is a floating point number in [-2, 0], at least -1 for optimal answers and at most -1 for all others.", "quantifier": "all monotone roundings with at least three bits, all histories of calls with floating point values", "why_tests_cant": "rounding errors depend on the whole history; tests compare a few values with approximate equality", "anchors": ["col_gen_estimator/_parameter_tuner.py:RunningStat", "col_gen_estimator/_parameter_tuner.py:Parameter", "col_gen_estimator/_col_gen_classifier.py:BaseSubproblem.solve_model"]}
{"id": "C110", "title": "A tree classifier constructed without a tree cannot be trained", "statement": "The constructor of DTreeClassifier accepts arguments without leaves only together with an empty list of initial paths, in particular DTreeClassifier() is accepted. Then every call of fit raises ValueError, on all data and with any solvers: nothing is solved, the classifier does not become fitted, and the argument objects keep their state, so later calls fail in the same way.", "quantifier": "all accepted arguments without leaves and without data_rows, all data, labels, limits, solvers and earlier states of the estimator", "why_tests_cant": "tests try one data set; the claim is for all data and all answers of the solvers", "anchors": ["col_gen_estimator/_dtree_classifier.py:2417-2428", "col_gen_estimator/_dtree_classifier.py:738"]}
{"id": "C111", "title": "Training cannot repair initial paths that do not fit together", "statement": "If the relaxation of the master problem made of the initial paths has no solution, DTreeClassifier.fit raises, whatever the labels, limits and random numbers are; the classifier does not become fitted and no path is added, and every later call of fit on such data fails too. The relaxation has no solution if some leaf has no initial path (in particular for the default initial_paths=[]), or if two leaves below the same node have no initial paths with the same split at this node.", "quantifier": "all trees of positive depth, arguments, data, labels, limits, random draws, numbers of earlier calls, and solvers that only report feasible points as solutions", "why_tests_cant": "tests try a few sets of initial paths; the claim is for all of them and for all later calls", "anchors": ["col_gen_estimator/_dtree_classifier.py:1024-1113", "col_gen_estimator/_dtree_classifier.py:1115-1171", "col_gen_estimator/_dtree_classifier.py:1937-2068", "col_gen_estimator/_dtree_classifier.py:1886-1918", "col_gen_estimator/_dtree_classifier.py:2343-2358"]}
{"id": "C112", "title": "Rule classifiers trained on more than two classes", "statement": "fit of the rule classifiers accepts labels with any number of classes of at least two. After a successful training predict returns only labels below which there is at most one other training label, so every training row with another label is misclassified. Training itself can fail: on the rows [0], [1], [0] with the labels 2, 1, 0 both rule classifiers with C=10, p=1 and without time limit raise AssertionError when at least two iterations are allowed, for all exact solvers, because the pricing problem counts the duals differently from the master and offers a clause the master already has.", "quantifier": "first part: all data, labels, arguments, limits and solvers; second part: all exact solvers and clocks", "why_tests_cant": "tests use two classes; the failure must be shown for every exact solver, whatever optimum it picks", "anchors": ["col_gen_estimator/_bdr_classifier.py:167-234", "col_gen_estimator/_bdr_classifier.py:236-275", "col_gen_estimator/_bdr_classifier.py:463-525", "col_gen_estimator/_bdr_classifier.py:677-703", "col_gen_estimator/_bdr_classifier.py:725-778"]}
{"id": "C113", "title": "Two live tree classifiers that share their path and split objects", "statement": "Construct a DTreeClassifier, call fit any number of times, construct a second classifier from its list of paths and its splits, and call fit on either of them in any order. Constructing the second one does not change what the first one predicts, and fit of either one does not change what the other one predicts, whether fit returns or raises. Of the shared path objects fit changes only the id and the mark as initial, of the shared splits only the cut sets, and paths are only appended to the list. This does not extend to training: if fit is called again on the first classifier after the second was trained, the first looks up the selected paths under ids that the second assigned; with exact solvers and valid arguments it may then return a tree that misclassifies a training row, although it would not have done so without the second.", "quantifier": "all arguments, data, labels, settings, solvers (sound or not), random draws and clocks; any number of calls in any order; the last sentence is an existence claim", "why_tests_cant": "each test builds its objects anew and keeps one classifier; the order of the calls matters", "anchors": ["col_gen_estimator/_dtree_classifier.py:DTreeMasterProblem.__init__", "col_gen_estimator/_dtree_classifier.py:DTreeMasterProblem.generate_mp", "col_gen_estimator/_dtree_classifier.py:DTreeMasterProblem.add_column", "col_gen_estimator/_dtree_classifier.py:DTreeMasterProblem.add_cuts", "col_gen_estimator/_dtree_classifier.py:DTreeMasterProblem.solve_ip", "col_gen_estimator/_dtree_classifier.py:DTreeClassifier.__init__", "col_gen_estimator/_dtree_classifier.py:DTreeClassifier.predict"]}
{"id": "C114", "title": "Looser limits never make the trained model worse", "statement": "Compare two calls of fit on the same objects in the same state, with the same data, solvers, random draws and clock, that differ only in max_iterations and time_limit, the second having the looser limits (a limit that is not positive means no limit). If the second call ends, so does the first. Either they are the same call, or the limits stopped the first, mp_optimal_ is False, and all its calls on the master problem and the subproblems up to the final integer program are the first calls of the second. A call that ends with mp_optimal_ is unchanged by looser limits. The second call never has fewer iterations, and the clauses (paths) of the first are the first clauses (paths) of the second. If the final integer programs are solved to optimality, the rule of the second has no larger Hamming loss on the training data than that of the first, and the costs of its tree add up to at least as much; with true costs of the initial paths its tree has at least as many training hits. The number of misclassified training rows is not covered: with exact solvers one more iteration may increase it, because the Hamming loss counts a row once for every clause that covers it.", "quantifier": "all settings, data, labels, limits, solvers, random draws and clocks; any number of earlier calls of fit on the same data; the last sentence is an existence claim", "why_tests_cant": "the tests fix one small number of iterations per case and never compare two limits", "anchors": ["col_gen_estimator/_col_gen_classifier.py:ColGenClassifier.fit", "col_gen_estimator/_bdr_classifier.py:BDRMasterProblem.solve_ip", "col_gen_estimator/_dtree_classifier.py:DTreeMasterProblem.solve_ip"]}
{"id": "C115", "title": "A second fit of a tree classifier does not look at the features it is given", "statement": "Call fit(X, y) on a newly constructed DTreeClassifier so that it ends with mp_optimal_, and then fit(X2, y2) with any features X2 of as many rows. The second call runs exactly like fit(X, y2): for the same labels, limits, solvers, random draws and clock it makes the same calls and raises the same exception or ends in the same state. The same holds for every later call. So a second fit on the old labels and new features succeeds and returns a tree that is at least as good as the first one on the old features. The labels of the second call are read, but not trained on either: with exact solvers, arguments that are right for both labellings, and the same features, a classifier may, after being fitted to other labels before, return normally with mp_optimal_ and predict none of the training labels, although a new classifier predicts all of them.", "quantifier": "all arguments, features, labels, limits, solvers (sound or not), random draws and clocks; the consequence for the tree for valid arguments and solvers that keep their contract; the last sentence is an existence claim", "why_tests_cant": "no test calls fit twice on one object with different data, and the equality concerns all pairs of feature matrices", "anchors": ["col_gen_estimator/_dtree_classifier.py:DTreeMasterProblem.generate_mp", "col_gen_estimator/_dtree_classifier.py:DTreeSubProblemSat.generate_columns", "col_gen_estimator/_dtree_classifier.py:DTreeSubProblemSat.update_subproblem", "col_gen_estimator/_dtree_classifier.py:DTreeSubProblemOld.update_subproblem", "col_gen_estimator/_dtree_classifier.py:DTreeSubProblemHeuristic.generate_columns", "col_gen_estimator/_dtree_classifier.py:DTreeClassifier.__init__"]}
{"id": "C116", "title": "The comparison with CART survives scikit-learn's single precision except for values equal to a threshold", "statement": "scikit-learn converts the features to single precision when it fits and scores the CART tree, while the experiment compares the unconverted features with the thresholds of that tree. A threshold is the midpoint, rounded to a double, of two neighbouring converted training values. For training data in double precision a training row whose values differ from the thresholds it meets on its way ends in the same leaf with and without the conversion. The accuracies of the CART tree with and without the conversion differ by at most the number of the other training rows. So under the conditions of C91 the experiment's classifier gets at least as many training rows right as scikit-learn reports for the CART tree, except for these rows. They cannot be left out: there are two training rows that the CART tree classifies correctly and that no question of the experiment can tell apart, so with sound solvers its classifier gets at most one of them right.", "quantifier": "all CART trees fitted as stated, all data in double precision, all conversions to a nearest single precision number (any treatment of ties) and all monotone roundings of midpoints, all solver answers that meet the contracts, limits; the last sentence is an existence claim", "why_tests_cant": "the difference shows only for values within half a unit in the last place of a single precision number of a threshold, which no test data contain", "anchors": ["examples/dtree_experiment.py:main", "examples/dtree_experiment.py:get_all_splits", "examples/dtree_experiment.py:row_satisfies_path", "col_gen_estimator/_dtree_classifier.py:DTreeClassifier.predict"]}
{"id": "C117", "title": "A certified experiment is the most accurate one, with or without merging of rows", "statement": "Merging of rows and its time limit influence only the prepared rows, not the paths, nodes, splits, leaves and targets. If training in the experiment ends with mp_optimal_ and the selected paths are worth more than rmp_objective_ plus the tolerances of C74 minus 1, then predict answers on the training data and no decision tree over the candidate questions, of the same depth or less and with any labels, has more right labels on the training data, where all rows count, also those removed in the preprocessing. No other experiment of the same depth or less whose candidate questions are among those of the certified one, on any data and with any solvers and limits, yields a classifier with more right labels there. Two certified experiments on the same trees and data, one with and one without aggressive merging, or stopped at different times, have equally many right labels.", "quantifier": "all CART trees, data, labels, depths, time limits and clocks that do not go backwards, all solver answers that meet the contracts, all prepared paths over candidate splits", "why_tests_cant": "compares the results of two trainings, and of one training with all decision trees, over all data sets and solver behaviours", "anchors": ["examples/dtree_experiment.py:main", "examples/dtree_experiment.py:preprocess", "col_gen_estimator/_dtree_classifier.py:DTreeClassifier.predict", "col_gen_estimator/_col_gen_classifier.py:ColGenClassifier.fit"]}
{"id": "C118", "title": "A tree classifier refuses rows that are too narrow for their way through the tree, and ignores further columns", "statement": "DTreeClassifier.predict does not compare the number of features with that of the training data. It raises IndexError exactly if, trying the selected paths in order on some row, it comes to a feature that the row does not have. After a successful fit this happens whenever some row does not have a feature that it is asked for on its way through the fitted tree, and never if all rows have the features of all nodes of the tree; if predict returns, the labels are those of the leaves in which the rows end. Further columns at the end of the rows do not change the result. A row that has all features on its own way may still be refused: there is a certified run and such a row for which predict raises IndexError.", "quantifier": "all inputs that meet the documented conditions, all histories of fits on the same data, all solver answers that meet the contracts, all limits, all rows of any length; the last sentence is an existence claim", "why_tests_cant": "the tests predict only on rows with all features; which rows fail depends on the values in the row and on the order of the selected paths", "anchors": ["col_gen_estimator/_dtree_classifier.py:DTreeClassifier.predict", "col_gen_estimator/_dtree_classifier.py:row_satisfies_path"]}
{"id": "C119", "title": "Pricing of the tree classifier with Python's floats", "statement": "DTreeSubProblemSat with rounded arithmetic: the product in scale_obj_coeff, the sums of PathGenerator.on_solution_callback and the constant 1e-6 are floats. After any sequence of calls, every returned path is a path of the leaf over its candidate splits with one of the classes as target; its cost is exact and at most its weighted number of hits; its reduced cost for the given duals is above 1e-6 minus a stated rounding error. If an optimal solution of the scaled program was passed to the callback, no path of the leaf is better than the best returned one by more than the error of the scaled objective, and without a returned path no path has a reduced cost above 1e-6 plus the stated errors. With Python's floats, as long as the number n of objective terms and n times the sum of the absolute values of the coefficients stay below 2^28, returned paths have reduced costs above 9e-7, and if none is returned no reduced cost is above 1.2e-6 + n * 1e-5. If this holds for all leaves, no tree has more hits than rmp_objective_ plus the errors of the leaves. Without rounding the model is the one of C47 and C48. The rounding can decide: there are duals and a solution for which exact arithmetic returns a path and floats return none.", "quantifier": "all data, weights up to 2^53 in total, depths, leaves, candidate splits, floating point duals, cut rows, histories of calls and solver answers; any monotone rounding of floating point numbers with a stated accuracy; the last sentence is an existence claim", "why_tests_cant": "the tests use a few small duals whose sums are exact or nearly so; the accumulated rounding error depends on all duals and on the order of summation", "anchors": ["col_gen_estimator/_dtree_classifier.py:DTreeSubProblemSat.scale_obj_coeff", "col_gen_estimator/_dtree_classifier.py:PathGenerator.on_solution_callback", "col_gen_estimator/_dtree_classifier.py:DTreeSubProblemSat.generate_columns"]}
{"id": "C120", "title": "The pricing heuristics with Python's floats", "statement": "BDRHeuristic and DTreeSubProblemHeuristic with rounded arithmetic: the product and the running sums of the reduced cost and the constant 1e-6 are floats. BDRHeuristic raises exactly when a dual is negative; otherwise it returns, shorter first and lexicographically, each once, clauses with 1 to K features: all with a reduced cost below -1e-6 minus a stated rounding error and none with one of -1e-6 plus that error or more. With Python's floats, C >= 2, n rows with (n+1)^2 (K+4) <= 2^28, and duals of a solved restricted master (feasible up to 9e-7, dual objective not negative), no returned clause is already in the master, so that add_column does not raise, whatever the penalty p. The tree heuristic does not raise, returned paths have the claimed form, cost and target, a reduced cost above 1e-6 minus the stated error, are pairwise different, and the 100 rounds are counted, for all random draws and all orders in which Python lists its sets. If no reduced cost is within the error of 1e-6, both heuristics return exactly the lists of exact arithmetic; without rounding the models are those of C29 and C49. For very large duals the lists can differ: a clause with reduced cost 0 is returned, an improving path is missed.", "quantifier": "all data, duals, K, weights up to 2^53 in total, depths, cut rows, random draws and set orders; any rounding with a stated accuracy; the last sentence is an existence claim", "why_tests_cant": "the tests use small duals whose sums are exact; the accumulated rounding error depends on all duals and on the order of summation", "anchors": ["col_gen_estimator/_bdr_classifier.py:BDRHeuristic.generate_columns", "col_gen_estimator/_dtree_classifier.py:DTreeSubProblemHeuristic.generate_columns", "col_gen_estimator/_dtree_classifier.py:DTreeSubProblemHeuristic.get_reduced_cost"]}
{"id": "C121", "title": "Cut generation with Python's floats", "statement": "add_cuts, add_beta_cuts and solve_rmp of DTreeMasterProblem with rounded arithmetic (scaled coefficients, running sums, the constants 1e-6 and 1 + 1e-6), for every order in which the set of paths of a row is listed, in every state reached by calls of the master. Every recorded cut is exceeded by the stored LP solution by more than 1e-6 minus a stated rounding error, is the pattern of some row, becomes one new constraint and is remembered by the splits. If nothing is recorded although an optimal solution was passed to the callback, no row of numbers has weight above 1 plus the accuracy of the search plus a stated error. A row gets a constraint only if its weight differs from 1 by more than 1e-6 minus a stated error; if fewer than ten rows got one, every remaining row is within 1e-6 plus that error. If the stored solution satisfies the cuts up to d and d plus the error is at most 1e-6, no cut is repeated; hence, with an LP solver of feasibility tolerance d and a limit on the rounds above the number of patterns plus rows, the cut rounds end because nothing is found. With Python's floats the errors are at most 1e-7 each when (number of paths + 1)(total weight + 1) <= 2^28, and d may be 9e-7; the total weight of a feasible solution is the number of leaves. Without rounding the functions are those of the exact model. Rounding can change the result: an LP solution of floats for which exact arithmetic finds a cut and Python none.", "quantifier": "all trees of positive depth, data, paths, histories of calls, LP and CP-SAT answers (sound; optimal where stated), set orders, tolerances; any rounding with a stated accuracy; the last sentence is an existence claim", "why_tests_cant": "rounding errors and solver tolerances depend on all path values and on the order of a set; repetition of cuts needs long runs", "anchors": ["col_gen_estimator/_dtree_classifier.py:CutGenerator.on_solution_callback", "col_gen_estimator/_dtree_classifier.py:DTreeMasterProblem.add_cuts", "col_gen_estimator/_dtree_classifier.py:DTreeMasterProblem.violated_row_constraint", "col_gen_estimator/_dtree_classifier.py:DTreeMasterProblem.add_beta_cuts", "col_gen_estimator/_dtree_classifier.py:DTreeMasterProblem.solve_rmp"]}
{"id": "C122", "title": "The master problem's own merging of rows", "statement": "DTreeMasterProblem.preprocess_rows(aggressive=True) returns one row per row of the data, equal to the rows of the call without aggressive except for removed_from_master. A row it marks follows only paths over candidate splits that end in at most two leaves, or follows the same paths as an earlier row that is not marked; if every node has a candidate split the marked rows are exactly those that follow paths to at most two leaves or follow the same paths as an earlier row. Leaving out the row constraints of the marked rows does not enlarge the set of (fractional) solutions of any master problem whose paths use candidate splits. Without a time limit the experiment's preprocess in aggressive mode removes the same rows from the master.", "quantifier": "all complete trees of positive depth, splits, candidate lists, data sets, labels, reached master problems and fractional solutions", "why_tests_cant": "pairs of rows in all data sets and fractional points of all programs", "anchors": ["col_gen_estimator/_dtree_classifier.py:DTreeMasterProblem.preprocess_rows", "examples/dtree_experiment.py:preprocess"]}
{"id": "C123", "title": "Solvers that are not available", "statement": "The constructors accept any solver name. If the solver of the exact pricing problem of a rule classifier is not available, fit does exactly what it does with the solver or raises AttributeError; it never ends with mp_optimal_; if every pricing problem needs that solver, as in BooleanDecisionRuleClassifier, it can return only because of the time limit; with no limits it raises AttributeError on every data set with two classes and leaves the classifier unfitted. If the solver of the master problem of a rule or tree classifier is not available, every fit raises: ValueError for a single class, AssertionError for a tree with a split given twice, otherwise AttributeError; only generate_mp was called, and the classifier stays unfitted, however often fit was tried before.", "quantifier": "all data sets, labels, limits, parameters, answers of the other solvers and sequences of earlier fit calls", "why_tests_cant": "all data sets, solver answers and histories; a test shows one missing solver on one data set", "anchors": ["col_gen_estimator/_col_gen_classifier.py:BaseMasterProblem.__init__", "col_gen_estimator/_col_gen_classifier.py:BaseSubproblem.__init__", "col_gen_estimator/_bdr_classifier.py:BDRMasterProblem.generate_mp", "col_gen_estimator/_bdr_classifier.py:BDRSubProblem.generate_columns", "col_gen_estimator/_dtree_classifier.py:DTreeMasterProblem.generate_mp"]}
{"id": "C124", "title": "Any sequence of fit and predict calls", "statement": "Whatever fit calls were made on a rule or tree classifier, returning or raising, also with data that the validation refuses: predict first validates its own input; then it raises NotFittedError if and only if no fit has returned so far; otherwise it predicts with the rule or tree of the last fit that returned (with none at all if a later fit raised in solve_ip), decoded with the labels of the last fit whose data were valid. So refused data, and fits that raise before solve_ip on data with the same labels, change no prediction; and after a fit that raised in solve_ip a classifier fitted before predicts the smallest label for every row.", "quantifier": "all sequences of fit calls with any data, limits, solver answers and outcomes, and all inputs of predict", "why_tests_cant": "all histories of calls that succeed or fail at any point; a test runs one", "anchors": ["col_gen_estimator/_col_gen_classifier.py:ColGenClassifier.fit", "col_gen_estimator/_bdr_classifier.py:BooleanDecisionRuleClassifier.predict", "col_gen_estimator/_dtree_classifier.py:DTreeClassifier.predict", "col_gen_estimator/_bdr_classifier.py:BDRMasterProblem.solve_ip", "col_gen_estimator/_dtree_classifier.py:DTreeMasterProblem.solve_ip"]}
{"id": "C125", "title": "Object identity: what fit writes and when sharing matters", "statement": "The paths, splits, nodes and data rows passed to DTreeClassifier are objects that fit writes. (1) If the objects passed to one classifier are distinct, every fit call has the outcome, attributes, calls, state and predictions of the model in which they are values. (2) Whatever is passed or shared, a fit call changes of existing objects only: the variable numbers of its paths, the cut numbers of its splits, the family links of its nodes and the recorded paths of its rows. (3) In a program that constructs and fits any number of classifiers from any shared objects, what other classifiers do changes no prediction of a classifier. (4) If one Path object with positive cost is passed twice in initial_paths, the master problem gets a variable without constraints and has no optimum, so with solvers that report an optimum only if there is one, no fit call returns normally.", "quantifier": "all heaps of objects, constructor arguments, data, solver answers, sequences of fit calls and programs of several classifiers", "why_tests_cant": "all patterns of aliasing between arguments and between classifiers, for all data and solver answers; a test builds fresh objects", "anchors": ["col_gen_estimator/_dtree_classifier.py:DTreeMasterProblem.generate_mp", "col_gen_estimator/_dtree_classifier.py:DTreeMasterProblem.preprocess_rows", "col_gen_estimator/_dtree_classifier.py:DTreeMasterProblem.add_column", "col_gen_estimator/_dtree_classifier.py:DTreeMasterProblem.add_cuts", "col_gen_estimator/_dtree_classifier.py:DTreeClassifier.predict"]}
{"id": "C126", "title": "Node objects that another tree used before", "statement": "preprocess_rows marks the nodes whose children are leaves and never clears the mark. In any program whose tree classifiers share node objects: if all trees have depth d or more, a master problem of depth d that creates its rows records exactly the nodes and leaves each row can reach and removes exactly the rows that reach at most two leaves. But if a classifier with a shallower tree of depth k built its master problem from the first nodes of the list, a deeper classifier constructed from the list afterwards stops every row at level k: it records the numbers of the nodes on that level as reachable leaves, no node below, and removes the rows that reach at most two of them. After a tree of depth 1 it never has a constraint for any row, although these rows are not redundant in the relaxation.", "quantifier": "all heaps, numbers of classifiers, orders of construction and fit calls, depths, data and solver answers", "why_tests_cant": "an effect between two estimators through shared argument objects, for all depths, data and histories", "anchors": ["col_gen_estimator/_dtree_classifier.py:DTreeMasterProblem.preprocess_rows", "col_gen_estimator/_dtree_classifier.py:Node", "col_gen_estimator/_dtree_classifier.py:DTreeMasterProblem.generate_mp"]}
{"id": "C127", "title": "The integer programs given to CP-SAT stay in the range of 64 bit integers", "statement": "CP-SAT rejects models whose expressions can leave the range of 64 bit integers. Whenever the pricing problem of DTreeSubProblemSat calls CP-SAT, after any sequence of updates and pricing calls, all variables are 0/1, all coefficients and bounds are integers, no constraint exceeds the number of variables plus the depth, and the absolute objective coefficients sum to at most 100000 times the absolute sum of row weights and duals plus half a unit per term; so the model is in range when N terms, total weight W and duals of absolute value at most B satisfy 100000 (W + N B) + N + classes + depth < 2^63. The cut generation objective sums to at most 10^6 (2^d (1 + delta) + 2 delta n) + n in every state whose stored solution is feasible up to delta, for n paths. The bound on the duals is necessary: exact optimal duals can be so large that the pricing model leaves the range.", "quantifier": "all depths, data, duals, cut rows, call sequences, solver answers and tolerances", "why_tests_cant": "overflow depends on the duals a solver returns; tests see only a few dual vectors", "anchors": ["col_gen_estimator/_dtree_classifier.py:DTreeSubProblemSat.create_submip", "col_gen_estimator/_dtree_classifier.py:DTreeSubProblemSat.update_objective", "col_gen_estimator/_dtree_classifier.py:DTreeSubProblemSat.scale_obj_coeff", "col_gen_estimator/_dtree_classifier.py:DTreeMasterProblem.add_cuts"]}
{"id": "C128", "title": "Cut generation runs only in every tenth solve of the tree master problem", "statement": "solve_rmp of the tree master problem counts its calls over all fit calls. A call whose count is not a multiple of ten solves the LP exactly once, reports no new cuts and leaves the linear program, the splits, the rows and the cuts unchanged; a call whose count is a multiple of ten makes at most num_cuts_round further LP solves and at most as many runs of the cut generation. So after any fit, returned or raised, from any state, the counter grew by the number n of solve_rmp calls, the number of LP solves is between n and n plus num_cuts_round for each multiple of ten that was passed, and new cuts are handed to the pricing problems only by such calls. num_cuts_round, generate_cuts and the answers of the cut generation solver have no influence at all on a fit that passes no multiple of ten: in particular on the first fit, returned or raised, of a classifier with an iteration limit below ten.", "quantifier": "all constructor arguments, data, start states, solver answers, iteration and time limits, run lengths", "why_tests_cant": "the counter spans fit calls and the equality of runs is over all solver answers", "anchors": ["col_gen_estimator/_dtree_classifier.py:DTreeMasterProblem.solve_rmp", "col_gen_estimator/_dtree_classifier.py:DTreeMasterProblem.add_cuts", "col_gen_estimator/_dtree_classifier.py:DTreeMasterProblem.add_beta_cuts"]}
{"id": "C129", "title": "predict lets sparse matrices pass but cannot use them", "statement": "fit rejects sparse matrices while predict of both classifiers accepts them. On a SciPy csr_matrix with at least one row and at least two columns: predict of a rule classifier answers as for the dense array if the rule is empty or its first clause is empty, and otherwise raises ValueError if the first index of the first clause is 0 and IndexError if not; predict of a tree classifier after any successful fit of positive depth always raises, ValueError if the first split of the first selected path is about feature 0 and IndexError if not. The entries of the matrix do not matter. On a matrix with one column both do exactly what they do for the dense array, including IndexError for a feature that is missing.", "quantifier": "all rules, classes, sparse matrices; all constructor arguments, training data, solver answers under their contracts and fit histories", "why_tests_cant": "the claim is about every fitted rule and tree and every sparse input", "anchors": ["col_gen_estimator/_bdr_classifier.py:BooleanDecisionRuleClassifier.predict", "col_gen_estimator/_bdr_classifier.py:BDRMasterProblem.satisfies_clause", "col_gen_estimator/_dtree_classifier.py:DTreeClassifier.predict", "col_gen_estimator/_dtree_classifier.py:row_satisfies_path"]}
{"id": "C130", "title": "Exchanging the classes does not matter for a certified tree, but for rules it does", "statement": "Renaming the labels in any way that keeps them different (not only in order as in C86) does not change the number of training rows for which a certified tree classifier is right: two fits on the same rows, of the same depth, with the same candidate questions and without data_rows, both with mp_optimal_, optimal CP-SAT answers and an integer solution within one of the relaxation plus tolerances, are right for equally many rows, whatever their initial paths, cuts, limits and solvers are. If the second fit has the same labelled rows in another order and each k times, it is right for exactly k times as many. A rule classifier can describe only one of the two classes: a rule that is right for all rows exists exactly if no row of the smaller label has non-zero values in all features in which some row of the larger label has. So there are data that fit learns without error, and after exchanging the classes no fit with any solvers, parameters and limits is right for all rows.", "quantifier": "all injective renamings, trees, data, settings, solvers under their contracts; all rules and labelled rows", "why_tests_cant": "relates two runs with different programs and solver answers; the negative part is about all runs", "anchors": ["col_gen_estimator/_dtree_classifier.py:DTreeClassifier.predict", "col_gen_estimator/_bdr_classifier.py:BooleanDecisionRuleClassifier.predict", "col_gen_estimator/_col_gen_classifier.py:ColGenClassifier.fit"]}
{"id": "C131", "title": "No clause of a trained rule can be dropped with profit", "statement": "After any successful fit of a rule classifier (the first of an object or a later one) whose final integer program was solved to optimality, deleting any of the clauses of the trained rule does not lower its training loss (wrong negative rows plus p times wrong positive rows); with the default p = 1 and two classes, predict with fewer clauses makes at least as many errors on the training rows. Every clause pays for the negative rows it covers: they are at most p times as many as the positive rows covered by this clause and by no other clause of the rule. So a clause that covers a negative row is the only clause of the rule that covers some positive row.", "quantifier": "all data with at most two labels, parameters, pricing levels, limits, solvers, sessions and subsets of the trained clauses", "why_tests_cant": "ranges over all data, generated columns and subsets; the loss that fit minimises is not the training loss", "anchors": ["col_gen_estimator/_bdr_classifier.py:BDRMasterProblem.solve_ip", "col_gen_estimator/_bdr_classifier.py:BooleanDecisionRuleClassifier.predict", "col_gen_estimator/_col_gen_classifier.py:ColGenClassifier.fit"]}
{"id": "C132", "title": "The fitted tree is the best one that can be put together from the paths collected so far", "statement": "After any successful fit of a tree classifier (the first of an object or a later one) whose integer program was solved to optimality, no tree made of initial and generated paths, in any combination, is worth more (sum of path costs) than the selected one, and if the initial costs do not overstate the hits the fitted classifier is right for at least that many training rows. No part of the fitted tree can be exchanged with profit: collected paths that form a tree with the remaining selected paths are worth at most as much as the paths they replace. In particular a collected path with the same questions as the selected path of its leaf, but another label, is not worth more.", "quantifier": "all arguments, data, sessions, limits, solvers under their contracts, trees of collected paths, sets of exchanged leaves", "why_tests_cant": "the number of combinations of collected paths is exponential, and the statement is about all runs including those cut by limits", "anchors": ["col_gen_estimator/_dtree_classifier.py:DTreeMasterProblem.solve_ip", "col_gen_estimator/_dtree_classifier.py:DTreeMasterProblem.add_column", "col_gen_estimator/_col_gen_classifier.py:ColGenClassifier.fit"]}
{"id": "C133", "title": "What repeated, added or removed rows and other penalties do to the certified value of a rule run", "statement": "Let a fit of a rule classifier end with mp_optimal_ under exact LP and pricing answers. Let another fit have returned, certified or not, with any solvers, pricing levels, limits and clocks, on data in which each labelled row (read as zero / not zero) occurs at least 1/k as often, with fewer features or the same, with a complexity bound that is not larger and a penalty p at least 1/q as large (q >= 1). Then the LP value of the final master of the certified run is at most k * q times that of the other run, up to 1e-6 * C. So removing rows never raises the certified value, doubling p at most doubles it, and repeating every row n times multiplies it by exactly n (up to n * 1e-6 * C), in whatever order the rows are.", "quantifier": "all pairs of data sets, multiplicities, parameters, solvers under their contracts, pricing levels, limits and clocks", "why_tests_cant": "it relates every pair of runs on data sets of different size; a test compares a few", "anchors": ["col_gen_estimator/_bdr_classifier.py:BDRMasterProblem.solve_rmp", "col_gen_estimator/_bdr_classifier.py:BDRMasterProblem.generate_mp", "col_gen_estimator/_col_gen_classifier.py:ColGenClassifier.fit"]}
{"id": "C134", "title": "What further training rows do to a certified tree", "statement": "Let two fits of a tree classifier of the same depth with the same candidate questions (no data_rows, new pricing) be certified as in C108: both return with mp_optimal_ under exact solvers, and the gap between the LP value and the cost of the selected paths is below one row. Let the labelled rows of the second be those of the first, in any order, and m further rows. Then the number of training rows for which predict is right does not fall and rises by at most m; on the rows of the first fit the second classifier is right for at most as many rows as the first, and for at most m fewer. One certified run suffices for one side: the one with more rows is right for at least as many rows as any other returned run on fewer rows is on all of them, and no run with more rows, certified or not, is right for more rows than the certified one on fewer rows and the further rows it gets right.", "quantifier": "all pairs of data sets, depths, trees, initial paths, solvers under their contracts, limits and clocks", "why_tests_cant": "it relates every pair of runs on nested data sets; a test compares a few", "anchors": ["col_gen_estimator/_dtree_classifier.py:DTreeClassifier.predict", "col_gen_estimator/_dtree_classifier.py:DTreeMasterProblem.solve_ip", "col_gen_estimator/_col_gen_classifier.py:ColGenClassifier.fit"]}
{"id": "C135", "title": "predict works row by row", "statement": "For fitted rule and tree classifiers, dense or sparse input: predict(X) returns a vector y if and only if, for every row i, predict of that row alone returns exactly y[i] (matrices that pass check_array). So there are as many answers as rows; the rows can be split into batches or rearranged without changing the answer of any row; a batch is answered exactly if every row alone is; and every exception of a batch (IndexError for a row that is too narrow, ValueError for a code without a label) is one that some row raises alone.", "quantifier": "all rules, selected paths, split lists, class lists, batches and orders of rows", "why_tests_cant": "tests compare a few batches with expected answers", "anchors": ["col_gen_estimator/_bdr_classifier.py:BooleanDecisionRuleClassifier.predict", "col_gen_estimator/_dtree_classifier.py:DTreeClassifier.predict"]}
{"id": "C136", "title": "What fit and predict do with any numbers", "statement": "For any list of lists of numbers (ragged, empty, with NaN or infinities) and any list of labels: if they are not a matrix with at least one row and one column, finite entries and one integer label per row, fit of a newly constructed classifier raises ValueError and changes no attribute; with one class only it raises ValueError and the classifier is not fitted; otherwise fit ends: a rule classifier returns for two classes (solvers under their contracts), and for more classes or any solvers returns or raises AssertionError; a tree classifier with a tree for these data returns. After that predict raises ValueError for input that is no matrix of numbers; for a matrix with at least as many columns as the training data a rule classifier returns one training label per row, and only with fewer columns it may raise IndexError; a tree classifier returns one training label per row, or raises ValueError (leaf without class, C51), or IndexError if the matrix does not have the feature of some split. Without a successful fit, predict refuses invalid input with ValueError first, and raises NotFittedError for valid input.", "quantifier": "all lists of lists of numbers and NaN, all label lists, solvers, parameters, limits and clocks", "why_tests_cant": "tests try a few malformed inputs", "anchors": ["col_gen_estimator/_col_gen_classifier.py:ColGenClassifier.fit", "col_gen_estimator/_bdr_classifier.py:BooleanDecisionRuleClassifier.predict", "col_gen_estimator/_dtree_classifier.py:DTreeClassifier.predict"]}
{"id": "C137", "title": "score is the part of the rows that alone are answered right", "statement": "For fitted rule and tree classifiers, score(X, y) with as many labels as rows raises exactly if predict(X) raises, with the same exception; otherwise it is the number of rows for which predict of the row alone returns its label, divided by the number of rows. For at least one row it lies between 0 and 1 and is 1 exactly if predict(X) returns y. The score of two batches together is the mean of their scores weighted by the numbers of rows; rearranging the labelled rows does not change it. On its training data a certified tree has at least the score of any other run, whatever its training data, of at most the same depth and with no further candidate questions.", "quantifier": "all fitted classifiers, matrices, labels, batches, orders of rows, pairs of runs", "why_tests_cant": "tests compare a few scores with expected numbers; no test compares a run with all other runs", "anchors": ["col_gen_estimator/_col_gen_classifier.py:ColGenClassifier", "col_gen_estimator/_dtree_classifier.py:DTreeClassifier.predict", "col_gen_estimator/_bdr_classifier.py:BooleanDecisionRuleClassifier.predict"]}
{"id": "C138", "title": "What failed calls of fit do to the answers of a fitted classifier", "statement": "Let a rule or tree classifier be fitted and then let fit be called any number of times such that each call raises before solve_ip. If predict answered y[i] for a row before, it now answers the label that has the same place among the labels of the last call with valid data as y[i] had among the labels before, and it raises ValueError exactly if for some row there is no such label. So a call that is refused by the validation of its input changes no answer; a call that is refused for its single label m turns every answer that was the smallest label into m, and makes predict raise ValueError on every batch that had another answer.", "quantifier": "all histories of fit calls, data, labels, validations, solver answers, batches", "why_tests_cant": "no test calls predict after a failed fit", "anchors": ["col_gen_estimator/_col_gen_classifier.py:ColGenClassifier.fit", "col_gen_estimator/_bdr_classifier.py:BooleanDecisionRuleClassifier.predict", "col_gen_estimator/_dtree_classifier.py:DTreeClassifier.predict"]}
{"id": "C139", "title": "Separable data are learnt without an error", "statement": "Call two-class training data separable if for every row with the larger label and every row with the smaller label some feature is non-zero in the first and zero in the second. If some rule of any complexity predicts all training labels, the data are separable. Conversely, with exact solvers, separable data, C at least the number of rows with the larger label times one more than the number of features, C below one million and below one million times p, every rule classifier run that ends with mp_optimal_ predicts the labels of all training rows. So with exact solvers and no limits fit returns, and predict on the training data returns the labels if and only if the data are separable.", "quantifier": "all two-class data sets, C and p in the stated range, pricing levels with one exact level, solver answers, clocks", "why_tests_cant": "the claim is about all data sets and all exact solvers; tests fit a few", "anchors": ["col_gen_estimator/_bdr_classifier.py:BDRMasterProblem.solve_ip", "col_gen_estimator/_bdr_classifier.py:BDRSubProblem.generate_columns", "col_gen_estimator/_bdr_classifier.py:BooleanDecisionRuleClassifier.predict"]}
{"id": "C140", "title": "How far a certified rule can be from the best rule", "statement": "Let the training data have two labels, P rows of them the larger one, and let C be at least P times one more than the number of features. With exact solvers, the rule of a run that ends with mp_optimal_ has a Hamming loss (p for every missed row of the larger label, one for every pair of a row of the smaller label and a clause that covers it) of at most P times min(p, L + C/1000000), where L is the Hamming loss of any rule of complexity at most C. If L + C/1000000 is below p, it is at most P times the integer part of L + C/1000000. So if C is below one million and some rule of complexity at most C covers all rows of the larger label with f false alarms in total, and p is at least f + 1, then predict gives at most P * f wrong answers on the training rows. With exact solvers and no limits fit returns with such a rule.", "quantifier": "all two-class data sets, C, p and rules in the stated range, pricing levels with one exact level, solver answers, clocks", "why_tests_cant": "the claim compares with all rules on all data sets; the tests look at the rule of a few runs", "anchors": ["col_gen_estimator/_bdr_classifier.py:BDRMasterProblem.solve_ip", "col_gen_estimator/_bdr_classifier.py:BDRMasterProblem.generate_mp", "col_gen_estimator/_bdr_classifier.py:BooleanDecisionRuleClassifier.predict"]}
{"id": "C141", "title": "Contradictory rows bound the score", "statement": "Group labelled rows by what a classifier can see of them: for rules, which features are zero; for fitted trees, the answers to the questions of the given splits. Add up, over the groups, how often the most frequent label of the group occurs. No rule, whatever it was trained with, and no fitted tree, whatever its training data, labels and solvers, has a score on these rows above this sum divided by the number of rows. Moreover, call a row of the larger and a row of the smaller label clashing if the second is non-zero wherever the first is. For any clashing pairs of which no two share a row, every rule gives at least as many wrong answers as there are pairs.", "quantifier": "all labelled rows, rules, fitted trees, training data, solver answers, sets of pairs", "why_tests_cant": "a bound on all classifiers that can come out of fit; the tests score a few", "anchors": ["col_gen_estimator/_bdr_classifier.py:BooleanDecisionRuleClassifier.predict", "col_gen_estimator/_dtree_classifier.py:DTreeClassifier.predict", "col_gen_estimator/_col_gen_classifier.py:ColGenClassifier"]}
{"id": "C142", "title": "The object that records cuts, and the node lists of the experiment", "statement": "A CutGenerator that is passed any sequence of solutions: a solution raises IndexError exactly if a positive path variable has no coefficient, and then only solution_count changes; otherwise it is recorded exactly if the coefficients of its positive path variables add up to more than 1 + 1e-6. With a coefficient for every path variable nothing raises, solution_count is the number of solutions, and cuts() returns the path shapes and the row shapes of the recorded solutions in their order, at equal positions from the same solution. The method solution_count() can never be called: the attribute of the same name hides it and the call raises TypeError. get_nodes_list raises IndexError exactly if some id is not below the number of nodes and otherwise puts at position i the last node with id i or None; for the combined nodes of the experiment it returns the nodes in the order of their ids, none missing. merge_all_nodes_last_split changes last_split at the given keys and nothing else.", "quantifier": "all variables, coefficients, sequences of solutions, dictionaries of nodes, merge histories, depths", "why_tests_cant": "the callback is run by the solver and no test calls the accessors", "anchors": ["col_gen_estimator/_dtree_classifier.py:CutGenerator.on_solution_callback", "col_gen_estimator/_dtree_classifier.py:CutGenerator.solution_count", "col_gen_estimator/_dtree_classifier.py:CutGenerator.cuts", "examples/dtree_experiment.py:get_nodes_list", "examples/dtree_experiment.py:merge_all_nodes_last_split"]}
{"id": "C143", "title": "score with sample weights", "statement": "For fitted rule and tree classifiers, score(X, y, sample_weight=w) with as many labels and weights as rows raises exactly if predict(X) raises, with the same exception, or if the weights add up to zero (ZeroDivisionError); otherwise it is the total weight of the rows for which predict of the row alone returns its label, divided by the sum of the weights. With weights that are not negative it lies between 0 and 1. Multiplying all weights by a number other than zero does not change it, equal weights give the score without weights, and natural numbers as weights give the score of the data in which every row is repeated as often as its weight says.", "quantifier": "all fitted classifiers, rows, labels, weights", "why_tests_cant": "no test scores with weights", "anchors": ["col_gen_estimator/_col_gen_classifier.py:ColGenClassifier", "col_gen_estimator/_bdr_classifier.py:BooleanDecisionRuleClassifier.predict", "col_gen_estimator/_dtree_classifier.py:DTreeClassifier.predict"]}
{"id": "C144", "title": "C bounds the features that the answers of a rule depend on", "statement": "If fit of the rule classifier returns and its final integer program was solved to optimality (at most two labels, p not negative), there is a list of at most C minus the number of clauses features such that predict gives the same answers for any two batches whose rows are zero at the same features of the list; in particular there are at most C clauses. With two labels and C below 2 all rows of all batches get the same label, one of the training labels, and with C below 1 it is the smaller one.", "quantifier": "all two-class data sets, C, p, pricing levels, limits, solver answers, clocks, batches", "why_tests_cant": "a statement about all batches and all trained rules", "anchors": ["col_gen_estimator/_bdr_classifier.py:BDRMasterProblem.solve_ip", "col_gen_estimator/_bdr_classifier.py:BDRMasterProblem.generate_mp", "col_gen_estimator/_bdr_classifier.py:BooleanDecisionRuleClassifier.predict"]}
{"id": "C145", "title": "Few features decide an answer", "statement": "The answers of a fitted tree of depth d depend on at most 2^d - 1 features, each asked by a candidate split of a node: predict gives the same answers (or the same exception) for two batches whose rows have equal values at these features. For every single row at most d features decide: every row with the same values there gets the same answer. If the final integer program of the rule classifier was solved to optimality and a row gets the larger label, there are at most C - 1 features at which the row is not zero such that every row that is not zero at them gets this label.", "quantifier": "all data sets, depths, candidates, solver answers within their contract, rows, batches", "why_tests_cant": "a statement about all rows and all trained classifiers", "anchors": ["col_gen_estimator/_dtree_classifier.py:DTreeClassifier.predict", "col_gen_estimator/_dtree_classifier.py:DTreeMasterProblem.solve_ip", "col_gen_estimator/_bdr_classifier.py:BooleanDecisionRuleClassifier.predict", "col_gen_estimator/_bdr_classifier.py:BDRMasterProblem.solve_ip"]}
{"id": "C146", "title": "A certified tree against trees, guesses and perfect answers", "statement": "Let fit of a tree classifier (no data_rows, new pricing) be certified as in C108. Its score on the training data is at least the part of the training rows that any tree over its candidate questions of at most its depth answers right, at least the part of the rows with label c for every c (so always guessing the most frequent label is not better), and at least 1/k if k labels occur. predict returns exactly the training labels if and only if some tree over the candidate questions is right for all training rows.", "quantifier": "all data sets, depths, candidates, initial paths, solvers under their contracts, limits, clocks, earlier calls", "why_tests_cant": "the comparison is with all trees, and the tests use data that are easy to learn", "anchors": ["col_gen_estimator/_dtree_classifier.py:DTreeClassifier.predict", "col_gen_estimator/_dtree_classifier.py:DTreeMasterProblem.solve_ip", "col_gen_estimator/_col_gen_classifier.py:ColGenClassifier.fit"]}
{"id": "C147", "title": "A fitted tree is a list of rules, and rows can be moved up to the thresholds", "statement": "After a successful fit of a tree classifier of depth d there is a list of 2^d rules, each with d comparisons feature <= threshold or feature > threshold of candidate splits and with an answer, such that for every row exactly one rule has all its comparisons true and predict does with the row what this rule says. A row keeps its answer if every feature is moved by less than its distance to the thresholds of the candidate splits on this feature.", "quantifier": "all data sets, depths, candidates, solver answers within their contract, rows and moved rows", "why_tests_cant": "a statement about all rows and all trained classifiers", "anchors": ["col_gen_estimator/_dtree_classifier.py:DTreeClassifier.predict", "col_gen_estimator/_dtree_classifier.py:row_satisfies_path", "col_gen_estimator/_dtree_classifier.py:DTreeMasterProblem.solve_ip"]}
{"id": "C148", "title": "The printed statistics", "statement": "After any history of calls on a Parameter, print_stats does not raise: it prints a line for every registered value in the order of registration, with the number and the mean of the scores credited to it (0 without scores) and its final score (5 without scores). After any sequence of solve_model calls, raising or not, the report that the experiment prints for a subproblem before it writes the result file does not raise: there are as many solve times as gaps, the tables list exactly the values 3, 4, 2 and 2, 1 and 2, 0, and the counts of every table add up to the number of gaps.", "quantifier": "all histories, scores, random draws, solver answers, time limits", "why_tests_cant": "histories are unbounded, and no test calls print_stats after a failed solve", "anchors": ["col_gen_estimator/_parameter_tuner.py:Parameter.print_stats", "col_gen_estimator/_col_gen_classifier.py:BaseSubproblem.solve_model", "examples/dtree_experiment.py:main"]}
{"id": "C149", "title": "The result file can be read back", "statement": "Whatever numbers the experiment reports, writing its result file does not raise: all attributes that main assigns exist in Results. The file has three lines; a reader of comma separated values gets a header with all 17 attributes in increasing order, and in the second and third line for each attribute the value last assigned to cart_results and cg1_results (or the initial one), with the names CART and CG1. Any texts, also with commas, quotes and line ends, are read back as written. If the second object had an attribute that Results lacks, ValueError would be raised and the file would end after the line of CART.", "quantifier": "all values of the attributes, all sequences of assignments, all texts", "why_tests_cant": "no test runs the experiment or reads the file", "anchors": ["examples/dtree_experiment.py:Results.__init__", "examples/dtree_experiment.py:main"]}
{"id": "C150", "title": "The numbering of the tree with Python's floats", "statement": "Path.set_leaf, Leaf.create_leaf and preprocess_rows compute the father of a node by dividing integers as floats. Up to depth 52 paths, leaves and parents are those of exact division, however quotients are rounded. At any depth both loops end, the nodes of a path have decreasing numbers, its last node is the root, and the left and right nodes of the leaf are together the nodes of the path. From depth 54 on, with any rounding, the path of leaf 4 does not begin with the parent of the leaf; with Python's rounding this happens from depth 53 on (leaf 5).", "quantifier": "all depths, leaves and roundings of quotients", "why_tests_cant": "tests use depths 1 and 2; the error needs depth 53, where a tree cannot be enumerated", "anchors": ["col_gen_estimator/_dtree_classifier.py:Path.set_leaf", "col_gen_estimator/_dtree_classifier.py:Leaf.create_leaf", "col_gen_estimator/_dtree_classifier.py:DTreeMasterProblem.preprocess_rows"]}
{"id": "C151", "title": "score as a float", "statement": "score returns the float next to the part of right answers. For any number of rows it lies between 0 and 1, and a method with at least as many right answers has at least the same score. Up to 2^52 rows scores are in the same order as the numbers of right answers; up to 2^53 rows the score is 1.0 exactly if predict returns the labels; up to 2^51 rows the number of right answers is the integer next to rows times score. With 2^54 rows the score is 1.0 although one answer is wrong.", "quantifier": "all predict methods that work row by row, all labelled rows, all roundings", "why_tests_cant": "rounding matters for many rows or numbers of rows that are not powers of two; tests compare scores of a few rows", "anchors": ["col_gen_estimator/_col_gen_classifier.py:ColGenClassifier", "examples/dtree_experiment.py:main"]}
{"id": "C152", "title": "By how much fit can exceed its time limit", "statement": "Let generate_mp take at most g, solve_rmp at most m, each update_subproblem at most u, each generate_columns at most p and return at most k columns, each add_column at most a, and solve_ip at most v. Then a run of fit with time_limit > 0 and n subproblems that ends, normally or with an exception, ends at most max(g, time_limit + p + k*a) + m + n*u + v after its begin, and time_elapsed_ is at most that. The bound is attained.", "quantifier": "all master problems and subproblems with these bounds whose timer is not restarted, all limits, all runs", "why_tests_cant": "tests cannot measure all interleavings of slow calls; no test uses a time limit together with slow calls", "anchors": ["col_gen_estimator/_col_gen_classifier.py:ColGenClassifier.fit"]}
{"id": "C153", "title": "Rule classifiers cannot be trained with a negative bound or penalty", "statement": "The constructors accept C < 0 and p < 0. With two labels and C < 0, or p < 0, fit of a new rule classifier always ends with an exception and does not mark the classifier as fitted, whatever the limits and the pricing are. For C < 0 it is enough that the answers which the integer solver calls optimal or feasible are solutions; for p < 0 the solver has to stop with an optimal solution or none (the program is unbounded).", "quantifier": "all data with one label per row and two labels, all limits, pricing levels, clocks and LP answers, all integer solvers as described", "why_tests_cant": "all tests use positive C and p", "anchors": ["col_gen_estimator/_bdr_classifier.py:BDRMasterProblem.solve_ip", "col_gen_estimator/_bdr_classifier.py:BDRMasterProblem.generate_mp", "col_gen_estimator/_col_gen_classifier.py:ColGenClassifier.fit"]}
{"id": "C154", "title": "The penalty p bounds the two kinds of training errors of a rule", "statement": "Let a rule classifier be fitted on data with two labels with p >= 0, the final integer program being solved to optimality. Of the training rows to which predict gives the larger label, at most p times as many are wrong as right (the precision is at least 1/(1+p)). If C >= 1, p times the number of training rows that wrongly get the smaller label is at most the number of those that rightly get it. Both also hold after further calls of fit on the same data. In particular there are no wrong larger answers with p = 0, and no wrong smaller answers with C >= 1 and p larger than the number of rows with the smaller label. With C >= 1 and any p >= 0 the balanced accuracy on the training data is at least one half.", "quantifier": "all data with two labels and one label per row, all C, p >= 0, limits, pricing levels, clocks, LP and pricing answers", "why_tests_cant": "tests check accuracy on a few data sets with p = 1; the bounds hold for every data set and every stopping time", "anchors": ["col_gen_estimator/_bdr_classifier.py:BDRClassifier.predict", "col_gen_estimator/_bdr_classifier.py:BDRMasterProblem.solve_ip"]}
{"id": "C155", "title": "The sequence of calls on the subproblems", "statement": "After a fit that returned, the calls of update_subproblem were those of all subproblems in level order, repeated iter_ times. The calls of generate_columns were, for each iteration, those of the first so many subproblems in level order, and of all in the last iteration if mp_optimal_. So with n subproblems there are exactly n * iter_ updates and at most n * iter_ pricing calls, and no subproblem is asked more often than one before it. In a run that raises, the calls up to the exception follow the same order.", "quantifier": "all master problems and subproblems (any answers), shapes of the lists of subproblems, limits, clocks, labels and earlier states of the estimator", "why_tests_cant": "tests count a few calls on mocked objects; this determines the whole sequence for every run", "anchors": ["col_gen_estimator/_col_gen_classifier.py:ColGenClassifier.fit"]}
