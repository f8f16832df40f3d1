Satisfy.Props.C01_add                       Quot.sound, propext
Satisfy.Props.C01_sub                       Quot.sound, propext
Satisfy.Props.C01_mul                       Quot.sound, propext
Satisfy.Props.C01_div                       Quot.sound, propext
Satisfy.Props.C01_div_zero                  Quot.sound, propext
Satisfy.Props.C01_mod                       Quot.sound, propext
Satisfy.Props.C01_pow                       Quot.sound, propext
Satisfy.Props.C01_cmp                       Quot.sound, propext
Satisfy.Props.C01_and                       Quot.sound, propext
Satisfy.Props.C01_or                        Quot.sound, propext
Satisfy.Props.C01_neg                       propext
Satisfy.Props.C01_abs                       propext
Satisfy.Props.C01_sum                       Quot.sound, propext
Satisfy.Props.C01_quotient                  Classical.choice, Quot.sound, propext
Satisfy.Props.C01_remainder                 Classical.choice, Quot.sound, propext
Satisfy.Props.C01_bits                      Classical.choice, Quot.sound, propext
Satisfy.Props.floor_division_meaning        Classical.choice, Quot.sound, propext
Satisfy.Props.C02_refuted_int_div_expr      propext
Satisfy.Props.C02_refuted_floorDiv          propext
Satisfy.Props.C02_refuted                   propext
Satisfy.Props.C02_partial                   Quot.sound, propext
Satisfy.Props.C03_vars_exact                Classical.choice, Quot.sound, propext
Satisfy.Props.C03_vars_nodup                Quot.sound, propext
Satisfy.Props.C03_local                     Classical.choice, Quot.sound, propext
Satisfy.Props.C03_undefined                 Classical.choice, Quot.sound, propext
Satisfy.Props.C03_all_needed                Classical.choice, Quot.sound, propext
Satisfy.Props.C03_vars_neg                  propext
Satisfy.Props.C03_vars_abs                  propext
Satisfy.Props.C03_vars_add                  Classical.choice, Quot.sound, propext
Satisfy.Props.C03_vars_mul                  Classical.choice, Quot.sound, propext
Satisfy.Props.C03_vars_sub                  propext
Satisfy.Props.C03_vars_cmp                  propext
Satisfy.Props.C03_vars_and                  propext
Satisfy.Props.C03_vars_or                   propext
Satisfy.Props.C03_vars_div                  Quot.sound, propext
Satisfy.Props.C03_vars_mod                  Quot.sound, propext
Satisfy.Props.C03_vars_pow                  Quot.sound, propext
Satisfy.Props.C03_free_vars                 Classical.choice, Quot.sound, propext
Satisfy.Props.C03_free_vars_raises          Classical.choice, Quot.sound, propext
Satisfy.Props.C04_not_a_variable            propext
Satisfy.Props.C04_entry_irrelevant          Classical.choice, Quot.sound, propext
Satisfy.Props.C04_assignment                Classical.choice, Quot.sound, propext
Satisfy.Props.C04_operators_follow          Quot.sound, propext
Satisfy.Props.C05_refuted_or_in_and         Classical.choice, Quot.sound, propext
Satisfy.Props.C05_refuted_neg_div           Classical.choice, Quot.sound, propext
Satisfy.Props.C05_refuted_neg_param         Classical.choice, Quot.sound, propext
Satisfy.Props.C05_refuted_pow               Classical.choice, Quot.sound, propext
Satisfy.Props.C05_refuted_neg_and           Classical.choice, Quot.sound, propext
Satisfy.Props.C05_refuted_shadow            Classical.choice, Quot.sound, propext
Satisfy.Props.C05_refuted                   Classical.choice, Quot.sound, propext
Satisfy.Props.C05_partial                   Classical.choice, Quot.sound, propext
Satisfy.Props.C05_raises                    Classical.choice, Quot.sound, propext
Satisfy.Props.C05_skips                     Classical.choice, Quot.sound, propext
Satisfy.Props.C05_refuted_two               Classical.choice, Quot.sound, propext
Satisfy.Props.C06_refuted                   Classical.choice, Quot.sound, propext
Satisfy.Props.C06_refuted_param             Classical.choice, Quot.sound, propext
Satisfy.Props.C06_partial                   Classical.choice, Quot.sound, propext
Satisfy.Props.C07_accepts                   Classical.choice, Quot.sound, propext
Satisfy.Props.C07_refuted                   Classical.choice, Quot.sound, propext
Satisfy.Props.C07_refuted_general           Classical.choice, Quot.sound, propext
Satisfy.Props.C07_refuted_newline           Classical.choice, Quot.sound, propext
Satisfy.Props.C07_partial                   Classical.choice, Quot.sound, propext
Satisfy.Props.C07_generated                 Classical.choice, Quot.sound, propext
Satisfy.Props.C08_refuted                   Classical.choice, Quot.sound, propext
Satisfy.Props.C08_refuted_const             propext
Satisfy.Props.C08_partial_characterisation  Classical.choice, Quot.sound, propext
Satisfy.Props.C08_partial_refl              Classical.choice, Quot.sound, propext
Satisfy.Props.C08_partial_leaves            Quot.sound, propext
Satisfy.Props.cmp_eq_truth                  Classical.choice, Quot.sound, propext
Satisfy.Props.C09_not_early                 Quot.sound, propext
Satisfy.Props.C09_verdict                   Quot.sound, propext
Satisfy.Props.C09_stable                    Classical.choice, Quot.sound, propext
Satisfy.Props.C09_new_ok                    Classical.choice, Quot.sound, propext
Satisfy.Props.C09_compile_ok                Classical.choice, Quot.sound, propext
Satisfy.Props.C10_missing                   Quot.sound, propext
Satisfy.Props.C10_all_different             Classical.choice, Quot.sound, propext
Satisfy.Props.C11_raise                     Classical.choice, Quot.sound, propext
Satisfy.Props.C11_call                      Classical.choice, Quot.sound, propext
Satisfy.Props.C11_history                   Classical.choice, Quot.sound, propext
Satisfy.Props.C11_taken                     Classical.choice, Quot.sound, propext
Satisfy.Props.C12_call                      Classical.choice, Quot.sound, propext
Satisfy.Props.C12_solvable                  Classical.choice, Quot.sound, propext
Satisfy.Props.C12_final                     Classical.choice, Quot.sound, propext
Satisfy.Props.C12_stored                    Classical.choice, Quot.sound, propext
Satisfy.Props.C13_no_effect                 none
Satisfy.Props.C13_refuted                   propext
Satisfy.Props.C13_partial                   none
Satisfy.Props.C14_sound                     Classical.choice, Quot.sound, propext
Satisfy.Props.C14_meaning                   Classical.choice, Quot.sound, propext
Satisfy.Props.C14_unknown_variable          Classical.choice, Quot.sound, propext
Satisfy.Props.C15_complete                  Classical.choice, Quot.sound, propext
Satisfy.Props.C15_meaning                   Classical.choice, Quot.sound, propext
Satisfy.Props.C15_no_variables              Classical.choice, Quot.sound, propext
Satisfy.Props.C15_unsolvable                Classical.choice, Quot.sound, propext
Satisfy.Props.C16_distinct                  Classical.choice, Quot.sound, propext
Satisfy.Props.C17_terminates                Classical.choice, Quot.sound, propext
Satisfy.Props.C17_raises                    Classical.choice, Quot.sound, propext
Satisfy.Props.C17_finishes                  Classical.choice, Quot.sound, propext
Satisfy.Props.C18_policy                    Classical.choice, Quot.sound, propext
Satisfy.Props.C19_lexicographic             Classical.choice, Quot.sound, propext
Satisfy.Props.C20_limit                     Classical.choice, Quot.sound, propext
Satisfy.Props.C20_flag_last                 Classical.choice, Quot.sound, propext
Satisfy.Props.C20_any_consumer              Classical.choice, Quot.sound, propext
Satisfy.Props.C21_timeout                   Classical.choice, Quot.sound, propext
Satisfy.Props.C21_genuine                   Classical.choice, Quot.sound, propext
Satisfy.Props.C21_spent                     Classical.choice, Quot.sound, propext
Satisfy.Props.C22_stats                     Classical.choice, Quot.sound, propext
Satisfy.Props.C22_refuted                   Classical.choice, Quot.sound, propext
Satisfy.Props.C23_params                    Classical.choice, Quot.sound, propext
Satisfy.Props.C23_again                     Classical.choice, Quot.sound, propext
Satisfy.Props.C24_refuted                   Classical.choice, Quot.sound, propext
Satisfy.Props.C24_refuted_parameter         Classical.choice, Quot.sound, propext
Satisfy.Props.C24_partial                   Classical.choice, Quot.sound, propext
Satisfy.Props.C24_exact                     Classical.choice, Quot.sound, propext
Satisfy.Props.C24_ignored                   Classical.choice, Quot.sound, propext
Satisfy.Props.C25_refuted                   Classical.choice, Quot.sound, propext
Satisfy.Props.C25_skips                     Classical.choice, Quot.sound, propext
Satisfy.Props.C25_partial                   Classical.choice, Quot.sound, propext
Satisfy.Props.C26_values                    Classical.choice, Quot.sound, propext
Satisfy.Props.C26_partial                   Classical.choice, Quot.sound, propext
Satisfy.Props.C26_interpreted_partial       Classical.choice, Quot.sound, propext
Satisfy.Props.C26_refuted                   Classical.choice, Quot.sound, propext
Satisfy.Props.C26_refuted_frozen            Classical.choice, Quot.sound, propext
Satisfy.Props.C27_interleaved               Classical.choice, Quot.sound, propext
Satisfy.Props.C28_sound                     Classical.choice, Quot.sound, propext
Satisfy.Props.C28_distinct                  Classical.choice, Quot.sound, propext
Satisfy.Props.C28_terminates                Classical.choice, Quot.sound, propext
Satisfy.Props.C28_raises                    Classical.choice, Quot.sound, propext
Satisfy.Props.C29_solution                  Classical.choice, Quot.sound, propext
Satisfy.Props.C29_flag                      Classical.choice, Quot.sound, propext
Satisfy.Props.C29_returns                   Classical.choice, Quot.sound, propext
Satisfy.Props.C30_partial                   Classical.choice, Quot.sound, propext
Satisfy.Props.C30_ordered_partial           Classical.choice, Quot.sound, propext
Satisfy.Props.C30_first_partial             Classical.choice, Quot.sound, propext
Satisfy.Props.C30_refuted                   Classical.choice, Quot.sound, propext
Satisfy.Props.C30_refuted_stale             Classical.choice, Quot.sound, propext
Satisfy.Props.C31_model                     Classical.choice, Quot.sound, propext
Satisfy.Props.C31_solve_partial             Classical.choice, Quot.sound, propext
Satisfy.Props.C31_interpreted_partial       Classical.choice, Quot.sound, propext
Satisfy.Props.C31_refuted                   Classical.choice, Quot.sound, propext
Satisfy.Props.C32_partial                   Classical.choice, Quot.sound, propext
Satisfy.Props.C32_returns                   Classical.choice, Quot.sound, propext
Satisfy.Props.C32_none                      Classical.choice, Quot.sound, propext
Satisfy.Props.C33_partial                   Classical.choice, Quot.sound, propext
Satisfy.Props.C33_near                      Classical.choice, Quot.sound, propext
Satisfy.Props.C33_single_run                Classical.choice, Quot.sound, propext
Satisfy.Props.C33_single_refuted            Classical.choice, Quot.sound, propext
Satisfy.Props.C33_negative_run              Classical.choice, Quot.sound, propext
Satisfy.Props.C33_negative_refuted          Classical.choice, Quot.sound, propext
Satisfy.Props.C34_partial                   Classical.choice, Quot.sound, propext
Satisfy.Props.C34_once_general              Classical.choice, Quot.sound, propext
Satisfy.Props.C34_errors                    Classical.choice, Quot.sound, propext
Satisfy.Props.C34_empty_refuted             Classical.choice, Quot.sound, propext
Satisfy.Props.C34_once_run                  Classical.choice, Quot.sound, propext
Satisfy.Props.C34_once_refuted              Classical.choice, Quot.sound, propext
Satisfy.Props.C35_fillings                  Classical.choice, Quot.sound, propext
Satisfy.Props.C35_partial                   Classical.choice, Quot.sound, propext
Satisfy.Props.C35_no_blank                  Classical.choice, Quot.sound, propext
Satisfy.Props.C35_rejects                   Classical.choice, Quot.sound, propext
Satisfy.Props.C35_errors                    Classical.choice, Quot.sound, propext
Satisfy.Props.C35_refuted                   Classical.choice, Quot.sound, propext
Satisfy.Props.C35_refuted_full              Classical.choice, Quot.sound, propext
Satisfy.Props.C36_partial                   Classical.choice, Quot.sound, propext
Satisfy.Props.C36_refuted                   Classical.choice, Quot.sound, propext
Satisfy.Props.C36_zero                      Classical.choice, Quot.sound, propext
Satisfy.Props.C37_partial                   Classical.choice, Quot.sound, propext
Satisfy.Props.C37_positions                 Classical.choice, Quot.sound, propext
Satisfy.Props.C37_no_nodes                  Classical.choice, Quot.sound, propext
Satisfy.Props.C37_bad_edge                  Quot.sound, propext
Satisfy.Props.C37_refuted                   Classical.choice, Quot.sound, propext
Satisfy.Props.C37_refuted_empty             Classical.choice, Quot.sound, propext
Satisfy.Props.C38_zero                      Classical.choice, Quot.sound, propext
Satisfy.Props.C38_partial                   Classical.choice, Quot.sound, propext
Satisfy.Props.C38_refuted                   Classical.choice, Quot.sound, propext
Satisfy.Props.C38_blank                     Classical.choice, Quot.sound, propext
Satisfy.Props.C38_refuted_zero              Classical.choice, Quot.sound, propext
Satisfy.Props.C39_runs                      Classical.choice, Quot.sound, propext
Satisfy.Props.C39_ragged                    propext
Satisfy.Props.C40_partial                   Classical.choice, Quot.sound, propext
Satisfy.Props.C40_blank                     Classical.choice, Quot.sound, propext
Satisfy.Props.C40_refuted                   Classical.choice, Quot.sound, propext
Satisfy.Props.C41_partial                   Classical.choice, Quot.sound, propext
Satisfy.Props.C41_type_error                Classical.choice, Quot.sound, propext
Satisfy.Props.C41_constant                  Classical.choice, Quot.sound, propext
Satisfy.Props.C41_no_letters                Classical.choice, Quot.sound, propext
Satisfy.Props.C41_refuted                   Classical.choice, Quot.sound, propext
Satisfy.Props.C41_chain                     Classical.choice, Quot.sound, propext
Satisfy.Props.C42_colorings                 Classical.choice, Quot.sound, propext
Satisfy.Props.C42_sound                     Classical.choice, Quot.sound, propext
Satisfy.Props.C42_no_rows                   Classical.choice, Quot.sound, propext
Satisfy.Props.C43_riddle                    Classical.choice, Quot.sound, propext
Satisfy.Props.C43_answer                    Classical.choice, Quot.sound, propext
Satisfy.Props.C44_lines                     Classical.choice, Quot.sound, propext
Satisfy.Props.C44_pixmap                    Classical.choice, Quot.sound, propext
Satisfy.Props.C44_default                   Classical.choice, Quot.sound, propext
Satisfy.Props.C44_image                     Classical.choice, Quot.sound, propext
Satisfy.Props.C44_nonogram                  Classical.choice, Quot.sound, propext
Satisfy.Props.C44_no_rows                   propext
Satisfy.Props.C44_ragged                    Classical.choice, Quot.sound, propext
Satisfy.Props.C45_order                     Classical.choice, Quot.sound, propext
Satisfy.Props.C46_stats                     Classical.choice, Quot.sound, propext
Satisfy.Props.C46_limit_is_total            Classical.choice, Quot.sound, propext
Satisfy.Props.C46_no_variables              Classical.choice, Quot.sound, propext
Satisfy.Props.C46_optimization              Classical.choice, Quot.sound, propext
Satisfy.Props.C46_optimization_text         Classical.choice, Quot.sound, propext
Satisfy.Props.C47_text                      Classical.choice, Quot.sound, propext
Satisfy.Props.C47_partial                   Classical.choice, Quot.sound, propext
Satisfy.Props.C47_refuted                   Classical.choice, Quot.sound, propext
Satisfy.Props.C48_count_elapsed             Classical.choice, Quot.sound, propext
Satisfy.Props.C48_interrupt                 Classical.choice, Quot.sound, propext
Satisfy.Props.C48_partial                   Classical.choice, Quot.sound, propext
Satisfy.Props.C48_refuted                   Classical.choice, Quot.sound, propext
Satisfy.Props.C49_optimize                  Classical.choice, Quot.sound, propext
Satisfy.Props.C49_optimal_solution          Classical.choice, Quot.sound, propext
Satisfy.Props.C49_solve                     Classical.choice, Quot.sound, propext
Satisfy.Props.C49_knapsack                  Classical.choice, Quot.sound, propext
Satisfy.Props.C49_mixed                     Classical.choice, Quot.sound, propext
Satisfy.Props.C50_pruned                    Classical.choice, Quot.sound, propext
Satisfy.Props.C51_exact                     Classical.choice, Quot.sound, propext
Satisfy.Props.C51_bound                     Classical.choice, Quot.sound, propext
Satisfy.Props.C52_timely                    Classical.choice, Quot.sound, propext
Satisfy.Props.C53_partial                   Classical.choice, Quot.sound, propext
Satisfy.Props.C53_progress_partial          Classical.choice, Quot.sound, propext
Satisfy.Props.C53_refuted                   Classical.choice, Quot.sound, propext
Satisfy.Props.C54_tokens                    Classical.choice, Quot.sound, propext
Satisfy.Props.C54_function                  Classical.choice, Quot.sound, propext
Satisfy.Props.C54_names                     Classical.choice, Quot.sound, propext
Satisfy.Props.C54_model                     Classical.choice, Quot.sound, propext
Satisfy.Props.C54_faithful                  Classical.choice, Quot.sound, propext
Satisfy.Props.C55_queens                    Classical.choice, Quot.sound, propext
Satisfy.Props.C55_queens_readable           Classical.choice, Quot.sound, propext
Satisfy.Props.C55_sudoku                    Classical.choice, Quot.sound, propext
Satisfy.Props.C55_sudoku_readable           Classical.choice, Quot.sound, propext
Satisfy.Props.C55_short                     Classical.choice, Quot.sound, propext
Satisfy.Props.C55_knapsack                  Classical.choice, Quot.sound, propext
Satisfy.Props.C55_riddle                    Classical.choice, Quot.sound, propext
Satisfy.Props.C56_running                   Classical.choice, Quot.sound, propext
Satisfy.Props.C56_transcript                Classical.choice, Quot.sound, propext
Satisfy.Props.C56_complete                  Classical.choice, Quot.sound, propext
Satisfy.Props.C56_queens                    Classical.choice, Quot.sound, propext
Satisfy.Props.C56_sudoku                    Classical.choice, Quot.sound, propext
Satisfy.Props.C56_limit                     Classical.choice, Quot.sound, propext
Satisfy.Props.C56_sudoku_default            Classical.choice, Quot.sound, propext
Satisfy.Props.C56_nonogram                  Classical.choice, Quot.sound, propext
Satisfy.Props.C56_riddle                    Classical.choice, Quot.sound, propext
Satisfy.Props.C56_one                       Classical.choice, Quot.sound, propext
Satisfy.Props.C56_map                       Classical.choice, Quot.sound, propext
Satisfy.Props.C56_map_default               Classical.choice, Quot.sound, propext
Satisfy.Props.C56_graph                     Classical.choice, Quot.sound, propext
Satisfy.Props.C56_cryptarithm               Classical.choice, Quot.sound, propext
Satisfy.Props.C57_partial                   Classical.choice, Quot.sound, propext
Satisfy.Props.C57_constructor               Classical.choice, Quot.sound, propext
Satisfy.Props.C57_timeout_infinity          Classical.choice, Quot.sound, propext
Satisfy.Props.C57_limit_infinity            Classical.choice, Quot.sound, propext
Satisfy.Props.C57_refuted                   Classical.choice, Quot.sound, propext
Satisfy.Props.C57_refuted_timeout           Classical.choice, Quot.sound, propext
Satisfy.Props.C58_first_partial             Classical.choice, Quot.sound, propext
Satisfy.Props.C58_one                       Classical.choice, Quot.sound, propext
Satisfy.Props.C58_refuted                   Classical.choice, Quot.sound, propext
Satisfy.Props.C58_refuted_empty             Classical.choice, Quot.sound, propext
Satisfy.Props.C58_refuted_unsolvable        Classical.choice, Quot.sound, propext
Satisfy.Props.C58_policy                    Classical.choice, Quot.sound, propext
Satisfy.Props.C59_isolated                  Classical.choice, Quot.sound, propext
Satisfy.Props.C59_solutions                 Classical.choice, Quot.sound, propext
Satisfy.Props.C60_partial                   Classical.choice, Quot.sound, propext
Satisfy.Props.C60_refuted                   Classical.choice, Quot.sound, propext
Satisfy.Props.C60_refuted_interpreted       Classical.choice, Quot.sound, propext
Satisfy.Props.C61_partial                   Classical.choice, Quot.sound, propext
Satisfy.Props.C61_refuted_none              Classical.choice, Quot.sound, propext
Satisfy.Props.C61_refuted_best              Classical.choice, Quot.sound, propext
Satisfy.Props.C62_switch                    Classical.choice, Quot.sound, propext
Satisfy.Props.C62_switch_error              Classical.choice, Quot.sound, propext
Satisfy.Props.C62_z                         Classical.choice, Quot.sound, propext
Satisfy.Props.C62_limit                     Classical.choice, Quot.sound, propext
Satisfy.Props.C62_limit_error               Classical.choice, Quot.sound, propext
Satisfy.Props.C62_partial                   none
Satisfy.Props.C62_refuted_map               none
Satisfy.Props.C63_parts                     Classical.choice, Quot.sound, propext
Satisfy.Props.C63_partial                   Classical.choice, Quot.sound, propext
Satisfy.Props.C63_operators                 Classical.choice, Quot.sound, propext
Satisfy.Props.C63_refuted_param             Classical.choice, Quot.sound, propext
Satisfy.Props.C63_refuted_name              Classical.choice, Quot.sound, propext
Satisfy.Props.C63_refuted_brackets          Classical.choice, Quot.sound, propext
Satisfy.Props.C63_refuted                   Classical.choice, Quot.sound, propext
Satisfy.Props.C64_partial                   Classical.choice, Quot.sound, propext
Satisfy.Props.C64_iterator                  Classical.choice, Quot.sound, propext
Satisfy.Props.C64_iteration                 Classical.choice, Quot.sound, propext
Satisfy.Props.C64_iterator_solve            Classical.choice, Quot.sound, propext
Satisfy.Props.C64_program                   Classical.choice, Quot.sound, propext
Satisfy.Props.C64_refuted                   Classical.choice, Quot.sound, propext
Satisfy.Props.C64_refuted_iterator          Classical.choice, Quot.sound, propext
Satisfy.Props.C64_twice                     Classical.choice, Quot.sound, propext
Satisfy.Props.C64_during                    Classical.choice, Quot.sound, propext
Satisfy.Props.C65_isolated                  Classical.choice, Quot.sound, propext
Satisfy.Props.C65_assigned                  Classical.choice, Quot.sound, propext
Satisfy.Props.C65_solutions                 Classical.choice, Quot.sound, propext
Satisfy.Props.C65_own_parameters            Classical.choice, Quot.sound, propext
Satisfy.Props.C66_covered                   Classical.choice, Quot.sound, propext
Satisfy.Props.C66_best                      Classical.choice, Quot.sound, propext
Satisfy.Props.C66_single                    Classical.choice, Quot.sound, propext
Satisfy.Props.C66_result                    Classical.choice, Quot.sound, propext
Satisfy.Props.C66_near                      Classical.choice, Quot.sound, propext
Satisfy.Props.C67_isolated                  Classical.choice, Quot.sound, propext
Satisfy.Props.C67_untouched                 Classical.choice, Quot.sound, propext
Satisfy.Props.C67_begin                     Classical.choice, Quot.sound, propext
Satisfy.Props.C67_distinct                  Classical.choice, Quot.sound, propext
Satisfy.Props.C67_collect                   Classical.choice, Quot.sound, propext
Satisfy.Props.C67_optimize                  Classical.choice, Quot.sound, propext
Satisfy.Props.C67_optimize_distinct         Classical.choice, Quot.sound, propext
Satisfy.Props.C67_optimize_collect          Classical.choice, Quot.sound, propext
Satisfy.Props.C68_partial                   Classical.choice, Quot.sound, propext
Satisfy.Props.C68_constraint                Classical.choice, Quot.sound, propext
Satisfy.Props.C68_chain_drops               Quot.sound, propext
Satisfy.Props.C68_chain_last                Quot.sound, propext
Satisfy.Props.C68_connectives               propext
Satisfy.Props.C68_max_last                  Quot.sound, propext
Satisfy.Props.C68_in                        Quot.sound, propext
Satisfy.Props.C68_refuted_chain             propext
Satisfy.Props.C68_refuted_precedence        propext
Satisfy.Props.C68_refuted_and               propext
Satisfy.Props.C68_refuted_or                propext
Satisfy.Props.C68_refuted_not               propext
Satisfy.Props.C68_refuted_if                propext
Satisfy.Props.C68_refuted_max               propext
Satisfy.Props.C68_refuted_amp               propext
Satisfy.Props.C69_timer                     Quot.sound, propext
Satisfy.Props.C69_stats                     Quot.sound, propext
Satisfy.Props.C69_monotone                  Classical.choice, Quot.sound, propext
Satisfy.Props.C70_repr                      Classical.choice, Quot.sound, propext
Satisfy.Props.C70_same                      Classical.choice, Quot.sound, propext
Satisfy.Props.C70_value                     Classical.choice, Quot.sound, propext
Satisfy.Props.C70_names                     Classical.choice, Quot.sound, propext
Satisfy.Props.C70_invented                  Classical.choice, Quot.sound, propext
Satisfy.Props.C70_constraint                Classical.choice, Quot.sound, propext
Satisfy.Props.C70_names_text                Classical.choice, Quot.sound, propext
Satisfy.Props.C70_invented_text             Classical.choice, Quot.sound, propext
Satisfy.Props.C70_text                      Classical.choice, Quot.sound, propext
Satisfy.Props.C70_constraint_text           Classical.choice, Quot.sound, propext
Satisfy.Props.C71_partial                   Classical.choice, Quot.sound, propext
Satisfy.Props.C71_str                       none
Satisfy.Props.C71_refuted                   Classical.choice, Quot.sound, propext
Satisfy.Props.C72_variable                  Classical.choice, Quot.sound, propext
Satisfy.Props.C72_parameter                 Classical.choice, Quot.sound, propext
Satisfy.Props.C72_object                    Classical.choice, Quot.sound, propext
Satisfy.Props.C72_constraint                Classical.choice, Quot.sound, propext
Satisfy.Props.C72_all_different             Classical.choice, Quot.sound, propext
Satisfy.Props.C72_no_key                    Quot.sound, propext
Satisfy.Props.C72_lookup                    Classical.choice, Quot.sound, propext
Satisfy.Props.C72_lookup_parameter          Classical.choice, Quot.sound, propext
Satisfy.Props.C73_call                      Classical.choice, Quot.sound, propext
Satisfy.Props.C73_source                    Classical.choice, Quot.sound, propext
Satisfy.Props.C73_bad_value                 Classical.choice, Quot.sound, propext
Satisfy.Props.C73_both_inputs               Classical.choice, Quot.sound, propext
Satisfy.Props.C73_surplus                   Classical.choice, Quot.sound, propext
Satisfy.Props.C73_command                   Classical.choice, Quot.sound, propext
Satisfy.Props.C73_swallowed                 Classical.choice, Quot.sound, propext
Satisfy.Props.C74_map_default               Classical.choice, Quot.sound, propext
Satisfy.Props.C74_nonogram_default          Classical.choice, Quot.sound, propext
Satisfy.Props.C74_graph_default             Classical.choice, Quot.sound, propext
Satisfy.Props.C74_sudoku_text               Classical.choice, Quot.sound, propext
Satisfy.Props.C74_sudoku_default            Classical.choice, Quot.sound, propext
Satisfy.Props.C74_knapsack_default          Classical.choice, Quot.sound, propext
Satisfy.Props.C74_queens                    Classical.choice, Quot.sound, propext
Satisfy.Props.C74_einstein                  Classical.choice, Quot.sound, propext
Satisfy.Props.C74_einstein_text             Classical.choice, Quot.sound, propext
Satisfy.Props.C74_cryptarithm               Classical.choice, Quot.sound, propext
Satisfy.Props.C74_cryptarithm_default       Classical.choice, Quot.sound, propext
Satisfy.Props.C74_sudoku                    Classical.choice, Quot.sound, propext
Satisfy.Props.C74_nonogram                  Classical.choice, Quot.sound, propext
Satisfy.Props.C74_nonogram_image            Classical.choice, Quot.sound, propext
Satisfy.Props.C74_graph                     Classical.choice, Quot.sound, propext
Satisfy.Props.C74_map_file                  Classical.choice, Quot.sound, propext
Satisfy.Props.C74_map                       Classical.choice, Quot.sound, propext
Satisfy.Props.C74_knapsack                  Classical.choice, Quot.sound, propext
Satisfy.Props.C75_constructor               Quot.sound, propext
Satisfy.Props.C75_assign                    Quot.sound, propext
Satisfy.Props.C75_history                   propext
Satisfy.Props.C75_partial                   Classical.choice, Quot.sound, propext
Satisfy.Props.C75_wrong_policy              Classical.choice, Quot.sound, propext
Satisfy.Props.C75_ignored                   Classical.choice, Quot.sound, propext
Satisfy.Props.C75_wrong_timeout             Classical.choice, Quot.sound, propext
Satisfy.Props.C75_model_solver              propext
Satisfy.Props.C75_model_solver_iter         Classical.choice, Quot.sound, propext
Satisfy.Props.C75_objective                 none
Satisfy.Props.C75_optimize                  Classical.choice, Quot.sound, propext
Satisfy.Props.C75_not_an_objective          Classical.choice, Quot.sound, propext
Satisfy.Props.C75_refuted_keyword           Classical.choice, Quot.sound, propext
Satisfy.Props.C75_refuted_policy            Classical.choice, Quot.sound, propext
Satisfy.Props.C75_refuted_compile           Classical.choice, Quot.sound, propext
Satisfy.Props.C75_refuted_timeout           Classical.choice, Quot.sound, propext
Satisfy.Props.C76_queens                    Classical.choice, Quot.sound, propext
Satisfy.Props.C76_sudoku                    Classical.choice, Quot.sound, propext
Satisfy.Props.C76_nonogram                  Classical.choice, Quot.sound, propext
Satisfy.Props.C76_nonogram_image            Classical.choice, Quot.sound, propext
Satisfy.Props.C76_graph                     Classical.choice, Quot.sound, propext
Satisfy.Props.C76_cryptarithm               Classical.choice, Quot.sound, propext
Satisfy.Props.C76_not_json                  Classical.choice, Quot.sound, propext
Satisfy.Props.C76_nonogram_key              Classical.choice, Quot.sound, propext
Satisfy.Props.C76_knapsack_key              Classical.choice, Quot.sound, propext
Satisfy.Props.C76_sudoku_wrong              Classical.choice, Quot.sound, propext
Satisfy.Props.C76_knapsack_wrong            Classical.choice, Quot.sound, propext
Satisfy.Props.C76_cryptarithm_constant      Classical.choice, Quot.sound, propext
Satisfy.Props.C76_partial                   Classical.choice, Quot.sound, propext
Satisfy.Props.C76_refuted                   Classical.choice, Quot.sound, propext
Satisfy.Props.C76_refuted_sudoku            Classical.choice, Quot.sound, propext
Satisfy.Props.C76_refuted_nonogram          Classical.choice, Quot.sound, propext
Satisfy.Props.C76_refuted_image             Classical.choice, Quot.sound, propext
Satisfy.Props.C76_refuted_graph             Classical.choice, Quot.sound, propext
Satisfy.Props.C76_refuted_cryptarithm       Classical.choice, Quot.sound, propext
Satisfy.Props.C77_partial                   Classical.choice, Quot.sound, propext
Satisfy.Props.C77_single                    Classical.choice, Quot.sound, propext
Satisfy.Props.C77_type_error                Classical.choice, Quot.sound, propext
Satisfy.Props.C77_no_letters                Classical.choice, Quot.sound, propext
Satisfy.Props.C77_bare                      Classical.choice, Quot.sound, propext
Satisfy.Props.C77_bare_number               Classical.choice, Quot.sound, propext
Satisfy.Props.C77_refuted                   Classical.choice, Quot.sound, propext
Satisfy.Props.C77_program                   Classical.choice, Quot.sound, propext
Satisfy.Props.C77_program_bare              Classical.choice, Quot.sound, propext
Satisfy.Props.C77_program_constant          Classical.choice, Quot.sound, propext
Satisfy.Props.C77_program_number            Classical.choice, Quot.sound, propext
Satisfy.Props.C78_partial                   Classical.choice, Quot.sound, propext
Satisfy.Props.C78_uncompiled                Classical.choice, Quot.sound, propext
Satisfy.Props.C78_type_error                Classical.choice, Quot.sound, propext
Satisfy.Props.C78_no_letters                Classical.choice, Quot.sound, propext
Satisfy.Props.C78_refuted                   Classical.choice, Quot.sound, propext
Satisfy.Props.C78_program                   Classical.choice, Quot.sound, propext
Satisfy.Props.C78_program_constant          Classical.choice, Quot.sound, propext
Satisfy.Props.C79_rejected                  Classical.choice, Quot.sound, propext
Satisfy.Props.C79_program                   Classical.choice, Quot.sound, propext
Satisfy.Props.C79_conditions                Classical.choice, Quot.sound, propext
Satisfy.Props.C80_is_compiled               Classical.choice, Quot.sound, propext
Satisfy.Props.C80_before                    Classical.choice, Quot.sound, propext
Satisfy.Props.C80_after                     Classical.choice, Quot.sound, propext
Satisfy.Props.C80_value                     Classical.choice, Quot.sound, propext
Satisfy.Props.C80_others                    Classical.choice, Quot.sound, propext
