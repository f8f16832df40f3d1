{"claims": [
{"property": "C01", "status": "proved", "theorems": ["Satisfy.Props.C01_add", "Satisfy.Props.C01_sub", "Satisfy.Props.C01_mul", "Satisfy.Props.C01_div", "Satisfy.Props.C01_div_zero", "Satisfy.Props.C01_mod", "Satisfy.Props.C01_pow", "Satisfy.Props.C01_cmp", "Satisfy.Props.C01_and", "Satisfy.Props.C01_or", "Satisfy.Props.C01_neg", "Satisfy.Props.C01_abs", "Satisfy.Props.C01_sum", "Satisfy.Props.C01_quotient", "Satisfy.Props.C01_remainder", "Satisfy.Props.C01_bits", "Satisfy.Props.floor_division_meaning"], "note": "one theorem per operator, operands int or expression"},
{"property": "C02", "status": "partial", "theorems": ["Satisfy.Props.C02_refuted_int_div_expr", "Satisfy.Props.C02_refuted_floorDiv", "Satisfy.Props.C02_refuted", "Satisfy.Props.C02_partial"], "note": "false of the code: number / expression and number // expression always raise TypeError (refutations); C02_partial is what holds for expression operands"},
{"property": "C03", "status": "proved", "theorems": ["Satisfy.Props.C03_vars_exact", "Satisfy.Props.C03_vars_nodup", "Satisfy.Props.C03_local", "Satisfy.Props.C03_undefined", "Satisfy.Props.C03_all_needed", "Satisfy.Props.C03_vars_neg", "Satisfy.Props.C03_vars_abs", "Satisfy.Props.C03_vars_add", "Satisfy.Props.C03_vars_mul", "Satisfy.Props.C03_vars_sub", "Satisfy.Props.C03_vars_cmp", "Satisfy.Props.C03_vars_and", "Satisfy.Props.C03_vars_or", "Satisfy.Props.C03_vars_div", "Satisfy.Props.C03_vars_mod", "Satisfy.Props.C03_vars_pow", "Satisfy.Props.C03_free_vars", "Satisfy.Props.C03_free_vars_raises"], "note": "vars() is exactly the set of occurring variables, without repetition; evaluation depends only on them; free_vars() raises TypeError exactly for a Parameter under zero or more unary operators (C03_free_vars_raises)"},
{"property": "C04", "status": "proved", "theorems": ["Satisfy.Props.C04_not_a_variable", "Satisfy.Props.C04_entry_irrelevant", "Satisfy.Props.C04_assignment", "Satisfy.Props.C04_operators_follow"], "note": "parameters are not variables, substitution entries of that name are irrelevant, assigning a value is replacing the parameter by that number"},
{"property": "C05", "status": "partial", "theorems": ["Satisfy.Props.C05_refuted_or_in_and", "Satisfy.Props.C05_refuted_neg_div", "Satisfy.Props.C05_refuted_neg_param", "Satisfy.Props.C05_refuted_pow", "Satisfy.Props.C05_refuted_neg_and", "Satisfy.Props.C05_refuted_shadow", "Satisfy.Props.C05_refuted", "Satisfy.Props.C05_partial", "Satisfy.Props.C05_raises", "Satisfy.Props.C05_skips", "Satisfy.Props.C05_refuted_two"], "note": "false of the code (seven refutations: explicit Sum/Prod objects of two values inside each other, | inside &, unary minus over / & or a parameter, power of a negation, helper names hidden by variables); C05_partial: exact agreement on the decidable fragment Safe wherever evaluate has a value; C05_raises: without & and | the same exceptions too, and in general a compiled function raises only where evaluate does; C05_skips: with & the compiled function may skip the raising part"},
{"property": "C06", "status": "partial", "theorems": ["Satisfy.Props.C06_refuted", "Satisfy.Props.C06_refuted_param", "Satisfy.Props.C06_partial"], "note": "false of the code for 0 - e and 0 - p (refutations); C06_partial: all expressions over the vocabulary without a subtraction from 0, unless the right operand has no /, & or parameter"},
{"property": "C07", "status": "partial", "theorems": ["Satisfy.Props.C07_accepts", "Satisfy.Props.C07_refuted", "Satisfy.Props.C07_refuted_general", "Satisfy.Props.C07_refuted_newline", "Satisfy.Props.C07_partial", "Satisfy.Props.C07_generated"], "note": "false of the code for keyword names and names ending in newline (refutations, general); C07_partial: all other accepted names except sum/prod/abs, and all generated names"},
{"property": "C08", "status": "partial", "theorems": ["Satisfy.Props.C08_refuted", "Satisfy.Props.C08_refuted_const", "Satisfy.Props.C08_partial_characterisation", "Satisfy.Props.C08_partial_refl", "Satisfy.Props.C08_partial_leaves", "Satisfy.Props.cmp_eq_truth"], "note": "false of the code (refutations); exact characterisation of what equals() returns, reflexivity and leaves"},
{"property": "C09", "status": "proved", "theorems": ["Satisfy.Props.C09_not_early", "Satisfy.Props.C09_verdict", "Satisfy.Props.C09_stable", "Satisfy.Props.C09_new_ok", "Satisfy.Props.C09_compile_ok"], "note": "hypothesis FnOk (the stored compiled function comes from the constraint's own expression) is shown for new and compiled constraint objects"},
{"property": "C10", "status": "proved", "theorems": ["Satisfy.Props.C10_missing", "Satisfy.Props.C10_all_different"], "note": ""},
{"property": "C11", "status": "proved", "theorems": ["Satisfy.Props.C11_raise", "Satisfy.Props.C11_call", "Satisfy.Props.C11_history", "Satisfy.Props.C11_taken"], "note": "invariant over all histories of calls"},
{"property": "C12", "status": "proved", "theorems": ["Satisfy.Props.C12_call", "Satisfy.Props.C12_solvable", "Satisfy.Props.C12_final", "Satisfy.Props.C12_stored"], "note": "invariant over all histories of calls"},
{"property": "C13", "status": "partial", "theorems": ["Satisfy.Props.C13_no_effect", "Satisfy.Props.C13_refuted", "Satisfy.Props.C13_partial"], "note": "false of the code: set_solvable has no effect (proved for all worlds)"},
{"property": "C14", "status": "proved", "theorems": ["Satisfy.Props.C14_sound", "Satisfy.Props.C14_meaning", "Satisfy.Props.C14_unknown_variable"], "note": "every prefix of every run; constraints evaluated in the heap of the run (C14_sound), and by their compile-independent meaning (C14_meaning). Hypothesis Over: constraint mentions variables of the model only, at least one (C12; C14_unknown_variable shows why)"},
{"property": "C15", "status": "proved", "theorems": ["Satisfy.Props.C15_complete", "Satisfy.Props.C15_meaning", "Satisfy.Props.C15_no_variables", "Satisfy.Props.C15_unsolvable"], "note": "complete run, solvable model with a variable; by evaluation and by meaning. A model without variables yields nothing (C15_no_variables)"},
{"property": "C16", "status": "proved", "theorems": ["Satisfy.Props.C16_distinct"], "note": ""},
{"property": "C17", "status": "proved", "theorems": ["Satisfy.Props.C17_terminates", "Satisfy.Props.C17_raises", "Satisfy.Props.C17_finishes"], "note": "for any consumer, limit, timeout; the stack machine itself never fails"},
{"property": "C18", "status": "proved", "theorems": ["Satisfy.Props.C18_policy"], "note": ""},
{"property": "C19", "status": "proved", "theorems": ["Satisfy.Props.C19_lexicographic"], "note": ""},
{"property": "C20", "status": "proved", "theorems": ["Satisfy.Props.C20_limit", "Satisfy.Props.C20_flag_last", "Satisfy.Props.C20_any_consumer"], "note": "limit <= 0 behaves as 1; C20_any_consumer: also for optimize and any other consumer"},
{"property": "C21", "status": "proved", "theorems": ["Satisfy.Props.C21_timeout", "Satisfy.Props.C21_genuine", "Satisfy.Props.C21_spent"], "note": "all clocks; timeout is reported only if the elapsed time exceeds it (C21_genuine)"},
{"property": "C22", "status": "partial", "theorems": ["Satisfy.Props.C22_stats", "Satisfy.Props.C22_refuted"], "note": "timer protocol and count proved; the elapsed time is the sum of the segments that end with a solution, but the last segment (to the end of the search, or to the timeout) is not included (C22_refuted)"},
{"property": "C23", "status": "proved", "theorems": ["Satisfy.Props.C23_params", "Satisfy.Props.C23_again"], "note": "after any history of solves with the same compilation setting"},
{"property": "C24", "status": "partial", "theorems": ["Satisfy.Props.C24_refuted", "Satisfy.Props.C24_refuted_parameter", "Satisfy.Props.C24_partial", "Satisfy.Props.C24_exact", "Satisfy.Props.C24_ignored"], "note": "false of the code: variable-free additional constraints are ignored (two refutations), also those with unknown variables; C24_partial for constraints over variables of the model; C24_exact: without limit and timeout exactly the solutions of the model that satisfy those additional constraints that are over variables of the model; C24_ignored: the others change nothing"},
{"property": "C25", "status": "partial", "theorems": ["Satisfy.Props.C25_refuted", "Satisfy.Props.C25_skips", "Satisfy.Props.C25_partial"], "note": "false of the code for expressions that compile wrongly, and for & and | whose skipped part raises (C25_skips); C25_partial: step-by-step equality, exceptions included, for safe expressions that contain no & and |, or that have a value on the domains"},
{"property": "C26", "status": "partial", "theorems": ["Satisfy.Props.C26_values", "Satisfy.Props.C26_partial", "Satisfy.Props.C26_interpreted_partial", "Satisfy.Props.C26_refuted", "Satisfy.Props.C26_refuted_frozen"], "note": "false of the code: stale compiled function with compile_constraints=False, and constraints without variables frozen when added (refutations); C26_partial: always right with compilation, and without if nothing was compiled"},
{"property": "C27", "status": "proved", "theorems": ["Satisfy.Props.C27_interleaved"], "note": "any number of iterations, any schedule; the per-Solver statistics are not part of it"},
{"property": "C28", "status": "proved", "theorems": ["Satisfy.Props.C28_sound", "Satisfy.Props.C28_distinct", "Satisfy.Props.C28_terminates", "Satisfy.Props.C28_raises"], "note": "every prefix of every optimisation, any number of objectives, interleaved with bound updates; distinctness and termination included; an exception comes from solving or from evaluating an objective (C28_raises)"},
{"property": "C29", "status": "proved", "theorems": ["Satisfy.Props.C29_solution", "Satisfy.Props.C29_flag", "Satisfy.Props.C29_returns"], "note": "objective safe to compile and integer-valued on the domains; flag for all runs; optimal_solution returns whenever nothing can raise (C29_returns)"},
{"property": "C30", "status": "partial", "theorems": ["Satisfy.Props.C30_partial", "Satisfy.Props.C30_ordered_partial", "Satisfy.Props.C30_first_partial", "Satisfy.Props.C30_refuted", "Satisfy.Props.C30_refuted_stale"], "note": "false of the code: a bound on a single variable is applied once, before the search (C30_refuted), and the values of the variable bound last are filtered before the bound is tightened (C30_refuted_stale); C30_partial: optimal for objectives over zero or at least two variables that never get worse along the declared domains; C30_ordered_partial: with the ORDERED policy only the last variable of the objective matters; C30_first_partial: a single-variable objective is right if that variable is searched first; how far from the best the result can be: C66_near"},
{"property": "C31", "status": "partial", "theorems": ["Satisfy.Props.C31_model", "Satisfy.Props.C31_solve_partial", "Satisfy.Props.C31_interpreted_partial", "Satisfy.Props.C31_refuted"], "note": "C31_model proved in full; solve: equal step by step with compilation (C31_solve_partial) and when nothing compiles (C31_interpreted_partial); false of the code when compiling and non-compiling solvers are mixed (C31_refuted)"},
{"property": "C32", "status": "partial", "theorems": ["Satisfy.Props.C32_partial", "Satisfy.Props.C32_returns", "Satisfy.Props.C32_none"], "note": "false of the code for a one-shot iterable of weights (C34_once_refuted); C32_partial: all well-formed instances with weights that can be iterated again, any solver settings; C32_returns: the call returns; C32_none: no solution only if infeasible or interrupted"},
{"property": "C33", "status": "partial", "theorems": ["Satisfy.Props.C33_partial", "Satisfy.Props.C33_near", "Satisfy.Props.C33_single_run", "Satisfy.Props.C33_single_refuted", "Satisfy.Props.C33_negative_run", "Satisfy.Props.C33_negative_refuted"], "note": "false of the code if exactly one item has a nonzero value (C33_single_refuted) or a value is negative (C33_negative_refuted); C33_partial: nonnegative values, zero or at least two nonzero ones (or a single item, or ORDERED and the first item has a value); C33_near: for all values, a result called optimal is at most the value of one item below the best"},
{"property": "C34", "status": "partial", "theorems": ["Satisfy.Props.C34_partial", "Satisfy.Props.C34_once_general", "Satisfy.Props.C34_errors", "Satisfy.Props.C34_empty_refuted", "Satisfy.Props.C34_once_run", "Satisfy.Props.C34_once_refuted"], "note": "false of the code without values (C34_empty_refuted) and for one-shot weights, whose capacities are not enforced (C34_once_refuted); C34_partial: with at least one value construction succeeds exactly for well-formed int input. C34_once_general: what one-shot weights do in general (any selection, reported weights 0, \"optimal\" is the sum of all values). C34_errors: what is raised for which input"},
{"property": "C35", "status": "partial", "theorems": ["Satisfy.Props.C35_fillings", "Satisfy.Props.C35_partial", "Satisfy.Props.C35_no_blank", "Satisfy.Props.C35_rejects", "Satisfy.Props.C35_errors", "Satisfy.Props.C35_refuted", "Satisfy.Props.C35_refuted_full"], "note": "false of the code: contradictory givens are not noticed unless a blank sees them (C35_refuted), a complete correct grid yields nothing (C35_refuted_full); C35_partial: every schema with consistent givens and a blank, all settings of the solver, all orders of the sets that are the domains, exactly the completions, each once; C35_rejects: accepted exactly if 9x9 with entries None, 0..9; C35_fillings: any schema with a blank, with or without conflicts: exactly the fillings of the blanks in which each blank differs from all cells it sees; C35_no_blank: nothing"},
{"property": "C36", "status": "partial", "theorems": ["Satisfy.Props.C36_partial", "Satisfy.Props.C36_refuted", "Satisfy.Props.C36_zero"], "note": "false of the code only for n=0, which yields nothing (C36_refuted); C36_partial: all n > 0; C36_zero: what happens then"},
{"property": "C37", "status": "partial", "theorems": ["Satisfy.Props.C37_partial", "Satisfy.Props.C37_positions", "Satisfy.Props.C37_no_nodes", "Satisfy.Props.C37_bad_edge", "Satisfy.Props.C37_refuted", "Satisfy.Props.C37_refuted_empty"], "note": "false of the code: duplicate labels give improper labelings (C37_refuted), the empty graph yields nothing (C37_refuted_empty); C37_partial: all graphs with distinct nodes, edges between nodes, distinct labels; C37_positions: labels with repetitions, exactly the proper labelings by positions; C37_no_nodes: nothing"},
{"property": "C38", "status": "partial", "theorems": ["Satisfy.Props.C38_zero", "Satisfy.Props.C38_partial", "Satisfy.Props.C38_refuted", "Satisfy.Props.C38_blank", "Satisfy.Props.C38_refuted_zero"], "note": "false of the code when all clues are empty (C38_refuted: the blank picture is not produced) and for a clue containing 0 (C38_refuted_zero: a result is produced twice); C38_partial: positive clue numbers, at least one; C38_zero: zeros allowed, exactly the pictures in which the blocks (empty ones for zeros) can be placed, all of which have the clues without the zeros; C38_blank: all clues empty, nothing for all sizes"},
{"property": "C39", "status": "proved", "theorems": ["Satisfy.Props.C39_runs", "Satisfy.Props.C39_ragged"], "note": "rectangular pixmaps, cells any ints; C39_ragged: other pixmaps raise"},
{"property": "C40", "status": "partial", "theorems": ["Satisfy.Props.C40_partial", "Satisfy.Props.C40_blank", "Satisfy.Props.C40_refuted"], "note": "false of the code for blank pixmaps (C40_refuted); C40_partial: every rectangular 0/1 pixmap with a filled cell; C40_blank: for every blank pixmap nothing is produced"},
{"property": "C41", "status": "partial", "theorems": ["Satisfy.Props.C41_partial", "Satisfy.Props.C41_type_error", "Satisfy.Props.C41_constant", "Satisfy.Props.C41_no_letters", "Satisfy.Props.C41_refuted", "Satisfy.Props.C41_chain"], "note": "false of the code with avoid_leading_zeros=False (leading zeros still excluded, refutation) and for equations without letters (nothing produced), and where the letters of both sides disappear, as in 0*A==0*B (C41_type_error: the constructor raises TypeError; C41_constant: such a side has the same value for all digits); C41_partial: for every other text of the grammar, exactly the assignments without leading zeros, each once; C41_chain: for every chain of equations only the last equation is solved"},
{"property": "C42", "status": "proved", "theorems": ["Satisfy.Props.C42_colorings", "Satisfy.Props.C42_sound", "Satisfy.Props.C42_no_rows"], "note": "C42_sound is the claim; C42_colorings: the flood fill ends, the groups are the connected regions, and exactly the colourings are produced, each once; a map without regions yields nothing, a map without rows raises (C42_no_rows)"},
{"property": "C43", "status": "proved", "theorems": ["Satisfy.Props.C43_riddle", "Satisfy.Props.C43_answer"], "note": "exactly the arrangements with the fifteen statements, each once, for all settings; C43_answer: without timeout the one solution"},
{"property": "C44", "status": "proved", "theorems": ["Satisfy.Props.C44_lines", "Satisfy.Props.C44_pixmap", "Satisfy.Props.C44_default", "Satisfy.Props.C44_image", "Satisfy.Props.C44_nonogram", "Satisfy.Props.C44_no_rows", "Satisfy.Props.C44_ragged"], "note": "also with other characters, image to pixmap and back, and the clues of an image; pixmaps without rows or with rows of different lengths do not come back (C44_no_rows, C44_ragged)"},
{"property": "C45", "status": "proved", "theorems": ["Satisfy.Props.C45_order"], "note": "for models built through the API; the keys of every dict handed out are in the order of the policy (sorted, stable) and the dicts come in lexicographic order of it"},
{"property": "C46", "status": "proved", "theorems": ["Satisfy.Props.C46_stats", "Satisfy.Props.C46_limit_is_total", "Satisfy.Props.C46_no_variables", "Satisfy.Props.C46_optimization", "Satisfy.Props.C46_optimization_text"], "note": "formatting of the seconds is a parameter; C46_no_variables: without variables \"all 0\" is printed though the empty solution exists; C46_limit_is_total: \"partial\" is printed also when the limit equals the number of solutions; C46_optimization: print_optimization_stats without its second argument reports \"optimal\" when there is no solution"},
{"property": "C47", "status": "partial", "theorems": ["Satisfy.Props.C47_text", "Satisfy.Props.C47_partial", "Satisfy.Props.C47_refuted"], "note": "false of the code for sources with lower case letters (the letters stay in the printed text, refutation); C47_partial: for all sources in capital letters for which the constructor does not raise TypeError (C41_type_error), all solutions; C47_text: for all other sources too, everything that is printed, and it is a true equation exactly if the source has no lower case letters"},
{"property": "C48", "status": "partial", "theorems": ["Satisfy.Props.C48_count_elapsed", "Satisfy.Props.C48_interrupt", "Satisfy.Props.C48_partial", "Satisfy.Props.C48_refuted"], "note": "count and elapsed proved for all interleavings; the interrupt is false of the code (another iteration that was started earlier overwrites it, refutation); C48_partial: if no other iteration advanced since is interrupted; C48_interrupt: None is always right"},
{"property": "C49", "status": "proved", "theorems": ["Satisfy.Props.C49_optimize", "Satisfy.Props.C49_optimal_solution", "Satisfy.Props.C49_solve", "Satisfy.Props.C49_knapsack", "Satisfy.Props.C49_mixed"], "note": "all histories of solve/optimize; compiling: the call compiles or none of the earlier ones did (C49_mixed shows the condition is needed)"},
{"property": "C50", "status": "proved", "theorems": ["Satisfy.Props.C50_pruned"], "note": "stack of the model of solve, one entry per (variable list, substitution); Consistent is in SpecSearch"},
{"property": "C51", "status": "proved", "theorems": ["Satisfy.Props.C51_exact", "Satisfy.Props.C51_bound"], "note": "exact count for iterations that end without interrupt; bound for all others"},
{"property": "C52", "status": "proved", "theorems": ["Satisfy.Props.C52_timely"], "note": "time is measured from reading to reading of the clock; the bound is attained (example)"},
{"property": "C53", "status": "partial", "theorems": ["Satisfy.Props.C53_partial", "Satisfy.Props.C53_progress_partial", "Satisfy.Props.C53_refuted"], "note": "false of the code (C53_refuted: a solution equal in one objective and better in another is pruned). C53_partial: no solution is better in all objectives; C53_progress_partial: solutions never get worse in any objective"},
{"property": "C54", "status": "proved", "theorems": ["Satisfy.Props.C54_tokens", "Satisfy.Props.C54_function", "Satisfy.Props.C54_names", "Satisfy.Props.C54_model", "Satisfy.Props.C54_faithful"], "note": "parameters whose names are keywords are excluded; the lexer is the part of Python's tokenizer for ASCII texts of this kind"},
{"property": "C55", "status": "proved", "theorems": ["Satisfy.Props.C55_queens", "Satisfy.Props.C55_queens_readable", "Satisfy.Props.C55_sudoku", "Satisfy.Props.C55_sudoku_readable", "Satisfy.Props.C55_short", "Satisfy.Props.C55_knapsack", "Satisfy.Props.C55_riddle"], "note": "grids with fewer than nine rows raise IndexError while printing (C55_short); the pictures are lists of lines, given character by character, frames included"},
{"property": "C56", "status": "proved", "theorems": ["Satisfy.Props.C56_running", "Satisfy.Props.C56_transcript", "Satisfy.Props.C56_complete", "Satisfy.Props.C56_queens", "Satisfy.Props.C56_sudoku", "Satisfy.Props.C56_limit", "Satisfy.Props.C56_sudoku_default", "Satisfy.Props.C56_nonogram", "Satisfy.Props.C56_riddle", "Satisfy.Props.C56_one", "Satisfy.Props.C56_map", "Satisfy.Props.C56_map_default", "Satisfy.Props.C56_graph", "Satisfy.Props.C56_cryptarithm"], "note": "from the loop over the solutions on; the printed model (-s), the file reading and the greeting are not part of it. repr (graph demo) and termcolor.colored (map demo) are parameters"},
{"property": "C57", "status": "partial", "theorems": ["Satisfy.Props.C57_partial", "Satisfy.Props.C57_constructor", "Satisfy.Props.C57_timeout_infinity", "Satisfy.Props.C57_limit_infinity", "Satisfy.Props.C57_refuted", "Satisfy.Props.C57_refuted_timeout"], "note": "false of the code: INFINITY as an argument of solve() is compared with numbers and raises TypeError (C57_refuted, C57_refuted_timeout; what happens exactly: C57_limit_infinity, C57_timeout_infinity). Proved for the constructor and the setters, and for all other arguments"},
{"property": "C58", "status": "partial", "theorems": ["Satisfy.Props.C58_first_partial", "Satisfy.Props.C58_one", "Satisfy.Props.C58_refuted", "Satisfy.Props.C58_refuted_empty", "Satisfy.Props.C58_refuted_unsolvable", "Satisfy.Props.C58_policy"], "note": "false of the code: NameError after the first solution (C58_refuted; C58_one: never a second one), IndexError without variables, an unsolvable model still gets solutions, four policies are not known (C58_policy); C58_first_partial: the first solution of solve, after the same number of steps, else the same end"},
{"property": "C59", "status": "proved", "theorems": ["Satisfy.Props.C59_isolated", "Satisfy.Props.C59_solutions"], "note": "assignments to parameters of its own constraints are excluded here (C60), constraints that mention a parameter made by an optimisation in progress (C65_own_parameters), and, for an iteration that does not compile, iterations that do (C31); C59_solutions: soundness, distinctness, completeness for any program, whose other iterations may be calls of solve and optimize"},
{"property": "C60", "status": "partial", "theorems": ["Satisfy.Props.C60_partial", "Satisfy.Props.C60_refuted", "Satisfy.Props.C60_refuted_interpreted"], "note": "false of the code: starting another iteration compiles shared constraints with the new values, which changes the iteration in progress (C60_refuted); without compilation the new value is seen at once, in the middle of the search (C60_refuted_interpreted). C60_partial: if no other iteration is started meanwhile"},
{"property": "C61", "status": "partial", "theorems": ["Satisfy.Props.C61_partial", "Satisfy.Props.C61_refuted_none", "Satisfy.Props.C61_refuted_best"], "note": "false of the code: with nothing that fits the last line says \"Found sub-optimal solution\" (C61_refuted_none); a best selection found when the limit is reached is called sub-optimal (C61_refuted_best); \"optimal\" may be wrong for one nonzero value or negative values (C33). C61_partial: everything else, for all instances, settings and clocks"},
{"property": "C62", "status": "partial", "theorems": ["Satisfy.Props.C62_switch", "Satisfy.Props.C62_switch_error", "Satisfy.Props.C62_z", "Satisfy.Props.C62_limit", "Satisfy.Props.C62_limit_error", "Satisfy.Props.C62_partial", "Satisfy.Props.C62_refuted_map"], "note": "false of the code: the map demo raises TypeError for every -i file, as it opens the opened file (C62_refuted_map; the TypeError of open() is part of the model). Proved: the texts accepted by -z and -l and their meaning, for all ASCII texts (C62_switch, C62_z, C62_limit, and the errors), and the file reading of the demos with a JSON file (C62_partial, where the file is represented by its content). argparse and the JSON parser are not modelled. That -z off has no effect is C41"},
{"property": "C63", "status": "partial", "theorems": ["Satisfy.Props.C63_parts", "Satisfy.Props.C63_partial", "Satisfy.Props.C63_operators", "Satisfy.Props.C63_refuted_param", "Satisfy.Props.C63_refuted_name", "Satisfy.Props.C63_refuted_brackets", "Satisfy.Props.C63_refuted"], "note": "false of the code: the value of a parameter is not listed (C63_refuted_param), a variable may be named False and then looks like the constraint that never holds (C63_refuted_name), explicit Sum/Prod objects of two values are printed without brackets (C63_refuted_brackets). C63_partial: true for identifiers other than True and False and bracketed expressions without parameters, which includes those built with operators (C63_operators); C63_parts also gives the variables, domains and the pairwise meaning of the constraints. Domains are lists, tuples, ranges or sets; iterators are not modelled"},
{"property": "C64", "status": "partial", "theorems": ["Satisfy.Props.C64_partial", "Satisfy.Props.C64_iterator", "Satisfy.Props.C64_iteration", "Satisfy.Props.C64_iterator_solve", "Satisfy.Props.C64_program", "Satisfy.Props.C64_refuted", "Satisfy.Props.C64_refuted_iterator", "Satisfy.Props.C64_twice", "Satisfy.Props.C64_during"], "note": "false of the code: the object is stored, not copied, so a list changed later changes the model (C64_refuted), even during an iteration (C64_during) and into a domain with duplicates, which hands out the same solution twice (C64_twice); an iterator is used up by the declaration (C64_refuted_iterator, C64_iterator) and solve then raises TypeError (C64_iterator_solve). C64_partial: true of tuples, ranges, and lists and sets that are not changed; C64_iteration: an iteration runs on the values at its start if every variable has an immutable or untouched domain or a constraint of its own; C64_program: programs that leave their domain objects alone behave as in the model with domains as values that the other properties are about"},
{"property": "C65", "status": "proved", "theorems": ["Satisfy.Props.C65_isolated", "Satisfy.Props.C65_assigned", "Satisfy.Props.C65_solutions", "Satisfy.Props.C65_own_parameters"], "note": "C65_isolated: next to a run of optimize alone, for any program; the only difference there may be is a solution at which an objective raises, which is found but not handed on. C65_solutions: soundness, distinctness, at least one. C65_assigned: assignments to parameters of compiled constraints are not seen if no other iteration is started. Excluded, besides assignments: constraints that mention a parameter made by another optimisation (C65_own_parameters shows why), and, for an iteration that does not compile, iterations that do"},
{"property": "C66", "status": "proved", "theorems": ["Satisfy.Props.C66_covered", "Satisfy.Props.C66_best", "Satisfy.Props.C66_single", "Satisfy.Props.C66_result", "Satisfy.Props.C66_near"], "note": "C66_covered: any number of objectives. C66_best: one objective. C66_result: what is better than the result was handed out before. C66_near: a solution better than the result differs in one variable of the objective from a solution handed out that is not better than the result. C66_single: an objective over one variable leaves nothing out. Objectives need a value at the solutions, and a faithful compiled form if the solver compiles"},
{"property": "C67", "status": "proved", "theorems": ["Satisfy.Props.C67_isolated", "Satisfy.Props.C67_untouched", "Satisfy.Props.C67_begin", "Satisfy.Props.C67_distinct", "Satisfy.Props.C67_collect", "Satisfy.Props.C67_optimize", "Satisfy.Props.C67_optimize_distinct", "Satisfy.Props.C67_optimize_collect"], "note": "C67_isolated: changes of the caller do not reach the search; C67_untouched, C67_begin: nor the search the dicts of the caller; C67_distinct: every solution is a new dict; C67_collect: a list of solutions keeps their contents; C67_optimize, C67_optimize_distinct, C67_optimize_collect: the same of optimize. Constraints are those of the library, which only read the dict they are given"},
{"property": "C68", "status": "partial", "theorems": ["Satisfy.Props.C68_partial", "Satisfy.Props.C68_constraint", "Satisfy.Props.C68_chain_drops", "Satisfy.Props.C68_chain_last", "Satisfy.Props.C68_connectives", "Satisfy.Props.C68_max_last", "Satisfy.Props.C68_in", "Satisfy.Props.C68_refuted_chain", "Satisfy.Props.C68_refuted_precedence", "Satisfy.Props.C68_refuted_and", "Satisfy.Props.C68_refuted_or", "Satisfy.Props.C68_refuted_not", "Satisfy.Props.C68_refuted_if", "Satisfy.Props.C68_refuted_max", "Satisfy.Props.C68_refuted_amp"], "note": "false of the code: a comparison of expressions is an object that Python takes for true, so 1 <= x <= 3 is x <= 3, 'and' drops its first operand, 'or' its second, 'not' gives False, max and min give their last argument (refutations; C68_chain_drops, C68_chain_last, C68_connectives, C68_max_last, C68_in: in general). C68_partial, C68_constraint: it is true if these are only applied where their conditions contain no names, & and | stand between conditions and a divisor / has a name on its left (C02)"},
{"property": "C69", "status": "proved", "theorems": ["Satisfy.Props.C69_timer", "Satisfy.Props.C69_stats", "Satisfy.Props.C69_monotone"], "note": "Timer as an object of its own, over all sequences of calls; times are exact numbers"},
{"property": "C70", "status": "proved", "theorems": ["Satisfy.Props.C70_repr", "Satisfy.Props.C70_same", "Satisfy.Props.C70_value", "Satisfy.Props.C70_names", "Satisfy.Props.C70_invented", "Satisfy.Props.C70_constraint", "Satisfy.Props.C70_names_text", "Satisfy.Props.C70_invented_text", "Satisfy.Props.C70_text", "Satisfy.Props.C70_constraint_text"], "note": "exact: same repr if and only if alike (C70_repr, C70_constraint); C70_same, C70_value: the same tree, the same value; C70_text, C70_constraint_text: the text, with the class names spelled out in a separate spec; C70_names, C70_invented and C70_names_text, C70_invented_text: the names of a model meet the hypotheses. Constants are ints"},
{"property": "C71", "status": "partial", "theorems": ["Satisfy.Props.C71_partial", "Satisfy.Props.C71_str", "Satisfy.Props.C71_refuted"], "note": "false of the code: __str__ returns the method self.name without calling it, so str() raises TypeError for all of them (C71_str, C71_refuted). C71_partial: the identity of the objects, and repr()"},
{"property": "C72", "status": "proved", "theorems": ["Satisfy.Props.C72_variable", "Satisfy.Props.C72_parameter", "Satisfy.Props.C72_object", "Satisfy.Props.C72_constraint", "Satisfy.Props.C72_all_different", "Satisfy.Props.C72_no_key", "Satisfy.Props.C72_lookup", "Satisfy.Props.C72_lookup_parameter"], "note": "C72_variable, C72_parameter, C72_object (an equivalence with a relation), C72_constraint, C72_all_different: the exact world after the call and its result; C72_lookup, C72_lookup_parameter, C72_no_key: looking up. Names are ASCII"},
{"property": "C73", "status": "proved", "theorems": ["Satisfy.Props.C73_call", "Satisfy.Props.C73_source", "Satisfy.Props.C73_bad_value", "Satisfy.Props.C73_both_inputs", "Satisfy.Props.C73_surplus", "Satisfy.Props.C73_command", "Satisfy.Props.C73_swallowed"], "note": "C73_call: all commands and options; C73_source: with an equation; C73_bad_value, C73_both_inputs, C73_surplus, C73_command: where no demo is called; C73_swallowed: an equation directly after -z is taken for its argument. argparse is modelled for full option names and separate arguments; which texts float accepts and which files can be opened is left open"},
{"property": "C74", "status": "proved", "theorems": ["Satisfy.Props.C74_map_default", "Satisfy.Props.C74_nonogram_default", "Satisfy.Props.C74_graph_default", "Satisfy.Props.C74_sudoku_text", "Satisfy.Props.C74_sudoku_default", "Satisfy.Props.C74_knapsack_default", "Satisfy.Props.C74_queens", "Satisfy.Props.C74_einstein", "Satisfy.Props.C74_einstein_text", "Satisfy.Props.C74_cryptarithm", "Satisfy.Props.C74_cryptarithm_default", "Satisfy.Props.C74_sudoku", "Satisfy.Props.C74_nonogram", "Satisfy.Props.C74_nonogram_image", "Satisfy.Props.C74_graph", "Satisfy.Props.C74_map_file", "Satisfy.Props.C74_map", "Satisfy.Props.C74_knapsack"], "note": "The arguments go through C73, the report through the theorems about the puzzles, demos and the solver. The solutions are those of the puzzle (`QueensBoard`, `Riddle`, `CSolution`, `Completion`, `Picture`, `Labeling`, `Painted`, `Selection`), not of the model. What `json`, `networkx` and `termcolor` return is a parameter of the machine; documents hold ints. C74_\u2026_default: the outputs for the default data, if `json` reads JSON (`JsonText`, a grammar; met by a reader that is proved complete) and `networkx` reads graphs (`ReadsGraph`): the only completion of the sudoku (a checker of search certificates, proved sound for every schema), the only solution of the nonogram, all six labellings of the graph, the best selection of the knapsack, a colouring of the map"},
{"property": "C75", "status": "partial", "theorems": ["Satisfy.Props.C75_constructor", "Satisfy.Props.C75_assign", "Satisfy.Props.C75_history", "Satisfy.Props.C75_partial", "Satisfy.Props.C75_wrong_policy", "Satisfy.Props.C75_ignored", "Satisfy.Props.C75_wrong_timeout", "Satisfy.Props.C75_model_solver", "Satisfy.Props.C75_model_solver_iter", "Satisfy.Props.C75_objective", "Satisfy.Props.C75_optimize", "Satisfy.Props.C75_not_an_objective", "Satisfy.Props.C75_refuted_keyword", "Satisfy.Props.C75_refuted_policy", "Satisfy.Props.C75_refuted_compile", "Satisfy.Props.C75_refuted_timeout"], "note": "false of the code: solve() takes any keyword without complaint, also misspelled ones and compile_constraints, which it does not look at (C75_refuted_keyword, C75_refuted_compile); a policy that is none means ORDERED (C75_refuted_policy, C75_wrong_policy); constructor and properties accept any timeout and limit (C75_refuted_timeout, C75_wrong_timeout); ModelSolver(solver=...) ignores other settings (C75_model_solver); a collection with something that is no objective leaves parameters in the model (C75_not_an_objective). Proved: constructor, properties after any history, calls with right values, objectives"},
{"property": "C76", "status": "partial", "theorems": ["Satisfy.Props.C76_queens", "Satisfy.Props.C76_sudoku", "Satisfy.Props.C76_nonogram", "Satisfy.Props.C76_nonogram_image", "Satisfy.Props.C76_graph", "Satisfy.Props.C76_cryptarithm", "Satisfy.Props.C76_not_json", "Satisfy.Props.C76_nonogram_key", "Satisfy.Props.C76_knapsack_key", "Satisfy.Props.C76_sudoku_wrong", "Satisfy.Props.C76_knapsack_wrong", "Satisfy.Props.C76_cryptarithm_constant", "Satisfy.Props.C76_partial", "Satisfy.Props.C76_refuted", "Satisfy.Props.C76_refuted_sudoku", "Satisfy.Props.C76_refuted_nonogram", "Satisfy.Props.C76_refuted_image", "Satisfy.Props.C76_refuted_graph", "Satisfy.Props.C76_refuted_cryptarithm"], "note": "false of the code: if nothing is left to be found the search ends before it begins, and the last line is \"Found all 0 solutions\", though the puzzle has one solution: the empty board (C76_refuted), a finished sudoku (C76_refuted_sudoku; a wrong one is reported in the same way), a blank picture (C76_refuted_nonogram, C76_refuted_image), a graph without nodes (C76_refuted_graph), 1+1==2 (C76_refuted_cryptarithm). Proved: this output for all such inputs, the right report for the others (C76_partial, C74), and the exception for every kind of wrong input: C76_not_json, C76_nonogram_key, C76_knapsack_key, C76_sudoku_wrong, C76_knapsack_wrong, C76_cryptarithm_constant"},
{"property": "C77", "status": "partial", "theorems": ["Satisfy.Props.C77_partial", "Satisfy.Props.C77_single", "Satisfy.Props.C77_type_error", "Satisfy.Props.C77_no_letters", "Satisfy.Props.C77_bare", "Satisfy.Props.C77_bare_number", "Satisfy.Props.C77_refuted", "Satisfy.Props.C77_program", "Satisfy.Props.C77_program_bare", "Satisfy.Props.C77_program_constant", "Satisfy.Props.C77_program_number"], "note": "false of the code: Python turns a < b < c into \"a < b and b < c\", and an expression object counts as true, so only one comparison of a chain is kept: 3<A<5 also gives A=1, 2, 3 (C77_refuted). C77_partial: the results of any chain are exactly those of its decisive comparison (the first between numbers or constants that is false, else the last), each once, and no assignment for which all hold is lost; C77_single: with one comparison, whichever of the six, the claim is true; C77_type_error: TypeError if the decisive comparison is between two constants; C77_no_letters: nothing without letters; C77_bare, C77_bare_number: a text without comparison means \"not 0\", TypeError without letters; C77_program, C77_program_bare, C77_program_constant, C77_program_number: the same for satisfy cryptarithm, with its whole output"},
{"property": "C78", "status": "partial", "theorems": ["Satisfy.Props.C78_partial", "Satisfy.Props.C78_uncompiled", "Satisfy.Props.C78_type_error", "Satisfy.Props.C78_no_letters", "Satisfy.Props.C78_refuted", "Satisfy.Props.C78_program", "Satisfy.Props.C78_program_constant"], "note": "false of the code: Or.py_expr prints no brackets, so a compiled & with a | inside is another condition: ((A==1)|(A==2))&(A==3) yields A=1 (C78_refuted). C78_partial: true if no | is inside an &. C78_uncompiled: true of every condition that is not computed at once, if compile_constraints is False. C78_type_error: a condition on constants raises TypeError. C78_no_letters: nothing without letters. C78_program, C78_program_constant: the same for satisfy cryptarithm, with its whole output"},
{"property": "C79", "status": "proved", "theorems": ["Satisfy.Props.C79_rejected", "Satisfy.Props.C79_program", "Satisfy.Props.C79_conditions"], "note": "C79_rejected: the constructor raises SyntaxError for every such text; C79_program: so does satisfy cryptarithm (the line with the source, printed before, is not part of the model's outcome); C79_conditions: no text of C78 (so none of C41) has such a mistake. A starred argument after an opening bracket and the shifts << and >> are valid Python and no mistakes here"},
{"property": "C80", "status": "proved", "theorems": ["Satisfy.Props.C80_is_compiled", "Satisfy.Props.C80_before", "Satisfy.Props.C80_after", "Satisfy.Props.C80_value", "Satisfy.Props.C80_others"], "note": "C80_is_compiled: compiled exactly if an expression and compile() was called; C80_before: present parameter values until then; C80_after: afterwards nothing but the last compile() matters; C80_value: that is the value for the parameters at that time, for the expressions that compile faithfully (C05); C80_others: the other kinds"}
]}
