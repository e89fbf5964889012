{"claims": [
 {"property": "C01", "status": "proved", "theorems": ["Nip.Props.C01_index_bijection"], "note": ""},
 {"property": "C02", "status": "proved", "theorems": ["Nip.Props.C02_single_write", "Nip.Props.C02_writes"], "note": ""},
 {"property": "C03", "status": "proved", "theorems": ["Nip.Props.C03_marginal", "Nip.Props.C03_refused"], "note": ""},
 {"property": "C04", "status": "proved", "theorems": ["Nip.Props.C04_total", "Nip.Props.C04_refused"], "note": ""},
 {"property": "C05", "status": "proved", "theorems": ["Nip.Props.C05_mass", "Nip.Props.C05_compose"], "note": ""},
 {"property": "C06", "status": "proved", "theorems": ["Nip.Props.C06_array", "Nip.Props.C06_potential"], "note": ""},
 {"property": "C07", "status": "proved", "theorems": ["Nip.Props.C07_columns", "Nip.Props.C07_local"], "note": ""},
 {"property": "C08", "status": "partial", "theorems": ["Nip.Props.C08_dimension_actual", "Nip.Props.C08_refuted", "Nip.Props.C08_equivalence_partial"], "note": "The documented equivalence is false of the code: nip_normalise_dimension divides by the marginal of the dimension. C08_refuted gives a witness, C08_dimension_actual says what is computed, C08_equivalence_partial characterises when they agree."},
 {"property": "C09", "status": "proved", "theorems": ["Nip.Props.C09_update", "Nip.Props.C09_refused"], "note": ""},
 {"property": "C10", "status": "proved", "theorems": ["Nip.Props.C10_evidence", "Nip.Props.C10_replace"], "note": ""},
 {"property": "C11", "status": "proved", "theorems": ["Nip.Props.C11_product", "Nip.Props.C11_order", "Nip.Props.C11_refused"], "note": ""},
 {"property": "C12", "status": "proved", "theorems": ["Nip.Props.C12_retract", "Nip.Props.C12_refused"], "note": ""},
 {"property": "C13", "status": "proved", "theorems": ["Nip.Props.C13_drain"], "note": ""},
 {"property": "C14", "status": "partial", "theorems": ["Nip.Props.C14_ordered_reachable", "Nip.Props.C14_refuted", "Nip.Props.C14_two_increases_refuted", "Nip.Props.C14_increase_partial"], "note": "False of the code for lowered costs (the changed element is only sifted down): C14_refuted; also false for two raised elements (C14_two_increases_refuted). Proved for one replacement that does not lower the cost."},
 {"property": "C15", "status": "partial", "theorems": ["Nip.Props.C15_refuted", "Nip.Props.C15_within_capacity_partial"], "note": "False of the code: realloc is given a number of elements as number of bytes, so the first insertion beyond the initial capacity is out of bounds for every capacity (C15_refuted). Proved within the capacity."},
 {"property": "C16", "status": "proved", "theorems": ["Nip.Props.C16_identities", "Nip.Props.C16_reset", "Nip.Props.C16_update"], "note": ""},
 {"property": "C17", "status": "proved", "theorems": ["Nip.Props.C17_union", "Nip.Props.C17_isect"], "note": ""},
 {"property": "C18", "status": "proved", "theorems": ["Nip.Props.C18_mapper", "Nip.Props.C18_refused"], "note": ""},
 {"property": "C19", "status": "partial", "theorems": ["Nip.Props.C19_permutation", "Nip.Props.C19_refuted", "Nip.Props.C19_small_partial"], "note": "False of the code: every array of at least four different variables is left out of order (C19_refuted, for all such arrays). Proved: always a permutation; sorted up to three variables."},
 {"property": "C20", "status": "proved", "theorems": ["Nip.Props.C20_sequence", "Nip.Props.C20_empty_frees"], "note": ""},
 {"property": "C21", "status": "proved", "theorems": ["Nip.Props.C21_lookup", "Nip.Props.C21_contains", "Nip.Props.C21_subset"], "note": ""},
 {"property": "C22", "status": "proved", "theorems": ["Nip.Props.C22_graph", "Nip.Props.C22_full"], "note": ""},
 {"property": "C23", "status": "partial", "theorems": ["Nip.Props.C23_refuted", "Nip.Props.C23_in_range_partial"], "note": "False of the code: any variable with an identity outside the range of those in the graph makes nip_graph_index read outside its table (C23_refuted, for every graph). Proved for identities inside the range."},
 {"property": "C24", "status": "proved", "theorems": ["Nip.Props.C24_moralise"], "note": ""},
 {"property": "C25", "status": "proved", "theorems": ["Nip.Props.C25_undirected", "Nip.Props.C25_interface"], "note": ""},
 {"property": "C26", "status": "proved", "theorems": ["Nip.Props.C26_triangulate"], "note": ""},
 {"property": "C27", "status": "proved", "theorems": ["Nip.Props.C27_family_and_interface"], "note": ""},
 {"property": "C28", "status": "proved", "theorems": ["Nip.Props.C28_spanning_tree"], "note": ""},
 {"property": "C29", "status": "proved", "theorems": ["Nip.Props.C29_running_intersection"], "note": ""},
 {"property": "C30", "status": "partial", "theorems": ["Nip.Props.C30_success_partial", "Nip.Props.C30_single_clique_refuted"], "note": "False of the code for a single clique: ENOMEM is reported although the tree is complete (C30_single_clique_refuted, for every clique). Proved for two or more cliques."},
 {"property": "C31", "status": "proved", "theorems": ["Nip.Props.C31_messages_keep_joint", "Nip.Props.C31_histories"], "note": ""},
 {"property": "C32", "status": "proved", "theorems": ["Nip.Props.C32_cliques_hold_marginals"], "note": ""},
 {"property": "C33", "status": "proved", "theorems": ["Nip.Props.C33_posterior_is_bayes"], "note": ""},
 {"property": "C34", "status": "proved", "theorems": ["Nip.Props.C34_mass_is_likelihood", "Nip.Props.C34_mass_ratio"], "note": ""},
 {"property": "C35", "status": "proved", "theorems": ["Nip.Props.C35_latest_evidence_wins", "Nip.Props.C35_evidence_only"], "note": ""},
 {"property": "C36", "status": "partial", "theorems": ["Nip.Props.C36_priors_stay_partial", "Nip.Props.C36_refuted"], "note": "False of the code: evidence that allows a state excluded by earlier evidence triggers a global retraction, which forgets the priors while they still count as entered (C36_refuted). Proved for all histories without such a contradiction."},
 {"property": "C37", "status": "proved", "theorems": ["Nip.Props.C37_reset_forgets"], "note": ""},
 {"property": "C38", "status": "proved", "theorems": ["Nip.Props.C38_priors_once", "Nip.Props.C38_second_request", "Nip.Props.C38_replaced_get_none"], "note": ""},
 {"property": "C39", "status": "proved", "theorems": ["Nip.Props.C39_negative_index", "Nip.Props.C39_unknown_name", "Nip.Props.C39_known_state"], "note": ""},
 {"property": "C40", "status": "proved", "theorems": ["Nip.Props.C40_evidence_commutes"], "note": ""},
 {"property": "C41", "status": "proved", "theorems": ["Nip.Props.C41_counted_tokens", "Nip.Props.C41_too_many", "Nip.Props.C41_split"], "note": ""},
 {"property": "C42", "status": "partial", "theorems": ["Nip.Props.C42_fewer_partial", "Nip.Props.C42_plain_partial", "Nip.Props.C42_refuted"], "note": "False of the code: if a separator that is a token, or an opening quote, follows directly on the last token wanted, two or three indices are written where one fits (C42_refuted). Proved if the next token does not touch the last one wanted, and for all strings without quoting and separator tokens."},
 {"property": "C43", "status": "partial", "theorems": ["Nip.Props.C43_tokens_partial", "Nip.Props.C43_unquoted_partial", "Nip.Props.C43_refuted"], "note": "False of the code: separator_found is not cleared inside quotes, so a separator in a quoted text swallows a character after it (C43_refuted). Proved for every string without separators inside quotes, in particular for all strings if quoting is off."},
 {"property": "C44", "status": "proved", "theorems": ["Nip.Props.C44_series", "Nip.Props.C44_lines", "Nip.Props.C44_short_lines", "Nip.Props.C44_returned_value"], "note": "Also proved: the value returned by nip_analyse_data_file is one less than the number of time series it is documented to return (C44_returned_value)."},
 {"property": "C45", "status": "partial", "theorems": ["Nip.Props.C45_state_names_partial", "Nip.Props.C45_headerless_refuted", "Nip.Props.C45_refuted"], "note": "False of the code for files without a header: the branch that would invent column names is never reached, no column is set up and no state name collected, whatever the file contains (C45_headerless_refuted). Proved for all files with a header."},
 {"property": "C46", "status": "proved", "theorems": ["Nip.Props.C46_any_order", "Nip.Props.C46_no_data", "Nip.Props.C46_written", "Nip.Props.C46_too_few", "Nip.Props.C46_file"], "note": ""},
 {"property": "C47", "status": "partial", "theorems": ["Nip.Props.C47_stored", "Nip.Props.C47_unchanged_partial", "Nip.Props.C47_no_parents", "Nip.Props.C47_refuted", "Nip.Props.C47_default_refuted"], "note": "False of the code: after reading, the parser normalises over the variable with the smallest identity (first declared), not over the child, so a proper table is changed when a parent was declared before the child (C47_refuted, numbers of test/input7.net), and the default table is uniform over the wrong variable (C47_default_refuted). C47_stored says exactly what is stored for every family; C47_unchanged_partial and C47_no_parents are the cases in which the claim holds."},
 {"property": "C48", "status": "partial", "theorems": ["Nip.Props.C48_first_state", "Nip.Props.C48_always_valid", "Nip.Props.C48_possible_state_partial", "Nip.Props.C48_refuted"], "note": "The interval rule and validity are proved for all distributions; 'never a state of probability zero' is false for the random number 0, which rand() can give (C48_refuted), and proved for positive random numbers."},
 {"property": "C49", "status": "proved", "theorems": ["Nip.Props.C49_order", "Nip.Props.C49_cycle"], "note": ""},
 {"property": "C50", "status": "proved", "theorems": ["Nip.Props.C50_true_report", "Nip.Props.C50_stops"], "note": "The steps of the algorithm are arbitrary functions, so the likelihoods are arbitrary."},
 {"property": "C51", "status": "proved", "theorems": ["Nip.Props.C51_new_tables", "Nip.Props.C51_model_relearned"], "note": "m_step, with nip_find_family_mapping, nip_normalise_cpd and nip_init_potential: for every network, every reachable model and every array of nonnegative counts, the parameters become the normalised counts and the model becomes exactly the one that parsing a file with these tables would give (all families, including reset of cliques, sepsets and evidence)."},
 {"property": "C52", "status": "proved", "theorems": ["Nip.Props.C52_filtering_is_causal"], "note": "Forward inference is modelled in Verif/Dynamic.lean. For an arbitrary model and interface (no hypothesis on them): two series about the same variables that agree on the first n rows give the same first n results. That the runs succeed is C53_filtering_partial."},
 {"property": "C53", "status": "partial", "theorems": ["Nip.Props.C53_filtering_partial", "Nip.Props.C53_unlinked_refuted", "Nip.Props.C53_shared_next_refuted"], "note": "Proved against the unrolled network (Verif/Spec/Unrolled.lean: sums over assignments to all slices), for any history of use of the model before, any series, any set of marked variables, with or without the likelihood. Needs that the temporal links make sense (NetFile.Temporal): every variable with a successor is a parent of something, same number of states, different successors. Refuted without the first (C53_unlinked_refuted: such a variable is not linked to the slice before) and without the last (C53_shared_next_refuted: the interface arrays overflow in parse_model). Time steps whose evidence has probability zero: C96."},
 {"property": "C54", "status": "partial", "theorems": ["Nip.Props.C54_set_get", "Nip.Props.C54_refused", "Nip.Props.C54_absent", "Nip.Props.C54_missing_refuted", "Nip.Props.C54_set_outside"], "note": "Set/get, refusals and absences proved for all series; a missing observation (-1) does not read back as absent but reads outside the array of state names, for every series (C54_missing_refuted). Setting outside the series is undefined too (C54_set_outside)."},
 {"property": "C55", "status": "partial", "theorems": ["Nip.Props.C55_history_partial", "Nip.Props.C55_returns_code", "Nip.Props.C55_refuted"], "note": "Proved for all histories without INT_MAX+1 reports since a reset; beyond that the counter overflows (C55_refuted)."},
 {"property": "C56", "status": "partial", "theorems": ["Nip.Props.C56_smoothing_partial", "Nip.Props.C56_unlinked_refuted"], "note": "Proved against the unrolled network for any series, history and marks, for files whose temporal links make sense (NetFile.Temporal). Refuted without the condition that a variable with a successor is a parent of something (C56_unlinked_refuted). Impossible data: C96."},
 {"property": "C57", "status": "partial", "theorems": ["Nip.Props.C57_likelihood_partial", "Nip.Props.C57_no_interface_refuted"], "note": "log is any function with log a - log b = log (a / b) for positive numbers. Proved for both functions if there is a temporal link or the data before the last slice are possible. Refuted without temporal links (C57_no_interface_refuted): later slices add to the number that marks impossible data."},
 {"property": "C58", "status": "proved", "theorems": ["Nip.Props.C58_repeatable"], "note": "Any sequence of calls of both functions with any series and options, after any history of operations on the model; the last call reports the same as on the fresh model if its data are possible."},
 {"property": "C59", "status": "partial", "theorems": ["Nip.Props.C59_expected_counts_partial", "Nip.Props.C59_unlinked_refuted"], "note": "e_step for any series, any history of use and any array of nonnegative counts, against the unrolled network, for files whose temporal links make sense (NetFile.Temporal). log is any function with log a - log b = log (a / b) for positive numbers that is not positive on numbers up to 1; the example uses real numbers and natural logarithms. Refuted without the condition that a variable with a successor is a parent of something (C59_unlinked_refuted): such a variable is counted in every slice. The log likelihood reported is the sum over slices of the logarithm of the probability of the data given the data before."},
 {"property": "C60", "status": "partial", "theorems": ["Nip.Props.C60_rounds_partial", "Nip.Props.C60_shared_next_refuted"], "note": "em_learn with all its rounds, for any series, any history of use, any start (random or from the model), any largest number of rounds and threshold, against the iteration on counts of the specification: curve, stopping decision, final counts, and the model left behind (posterior probabilities after a reset are those of the network of the last M-step). For files whose temporal links make sense; false without (C60_shared_next_refuted). Fuel is the largest number of rounds, at least three. All series belong to the model that is learned."},
 {"property": "C61", "status": "partial", "theorems": ["Nip.Props.C61_levelled_partial", "Nip.Props.C61_uniform_priors_partial", "Nip.Props.C61_learning_partial", "Nip.Props.C61_priors_refuted"], "note": "False: em_learn takes its starting point from the tables of the cliques, which do not contain the priors, so the first M-step makes every prior uniform (C61_priors_refuted, computed run of the code). Proved for all normalised acyclic files and all histories: the conditional probabilities stay as they are and the priors become uniform (C61_levelled_partial), so the claim holds if the priors are uniform (C61_uniform_priors_partial). For files with sensible temporal links, all the rounds of em_learn start from that network (C61_learning_partial)."},
 {"property": "C62", "status": "partial", "theorems": ["Nip.Props.C62_drop_partial", "Nip.Props.C62_zero_threshold_partial", "Nip.Props.C62_pseudo_counts_refuted", "Nip.Props.C62_penalised_partial"], "note": "False because of the pseudo counts: one round from a single observation takes the probability of the data from 9/10 to 2/3 (C62_pseudo_counts_refuted, real numbers and natural logarithms). Proved for every run that succeeds, from any state of the model: the log likelihood falls by no more than threshold times number of time steps between rounds (C62_drop_partial), so not at all if the threshold is zero (C62_zero_threshold_partial). What a round does not lower is the log likelihood plus the logarithms of all the parameters (C62_penalised_partial: Jensen's and Gibbs' inequalities over the unrolled network, for acyclic files whose linked variables have no parents; about the learning curve of the code)."},
 {"property": "C63", "status": "partial", "theorems": ["Nip.Props.C63_reads_partial", "Nip.Props.C63_two_columns_refuted", "Nip.Props.C63_short_line_refuted"], "note": "False in two ways, each refuted for all files of the kind: the missing fields of a short line are read as the first state (C63_short_line_refuted), and if a variable has two columns nothing is ever read, the array of hidden variables overflows (C63_two_columns_refuted). Proved for all other files and all models (C63_reads_partial): number and length of series, observed and hidden variables, every value. The whole chain is modelled: fgets lines, analysis of the file, tokens, search of names."},
 {"property": "C64", "status": "partial", "theorems": ["Nip.Props.C64_round_trip_partial", "Nip.Props.C64_empty_refuted", "Nip.Props.C64_null_refuted"], "note": "Proved for series of at least one time step, names that are words, no state called null, lines shorter than the line buffer (C64_round_trip_partial). False otherwise: a series without time steps vanishes, exactly the other ones come back (C64_empty_refuted); a state called null comes back as missing (C64_null_refuted)."},
 {"property": "C65", "status": "partial", "theorems": ["Nip.Props.C65_two_cliques_refuted", "Nip.Props.C65_refuted", "Nip.Props.C65_one_clique_partial"], "note": "False for every model with at least two cliques: whatever the history and the (non-empty) variables asked for, get_joint_probability never returns a table: it reports failure or writes outside an array (C65_two_cliques_refuted, C65_refuted). Proved for models with a single clique, and for an empty set of variables: exactly the joint posterior distribution (C65_one_clique_partial)."},
 {"property": "C66", "status": "partial", "theorems": ["Nip.Props.C66_draws_partial", "Nip.Props.C66_data_partial", "Nip.Props.C66_chain", "Nip.Props.C66_cycle", "Nip.Props.C66_distribution_partial", "Nip.Props.C66_zero_refuted"], "note": "Proved for files with sensible temporal links and no directed cycles: columns in topological order, every value a state of its variable, and as long as the earlier values are possible together each value is exactly the one in whose interval the random number lies (C66_draws_partial). For networks of conditional probabilities and random numbers in (0,1]: the data are characterised exactly (C66_data_partial), the conditional probabilities multiply to the weight in the unrolled network (C66_chain), and over the reals the volume of the random numbers that give certain data is their probability (C66_distribution_partial). False: files with directed cycles never finish (C66_cycle); a random number equal to zero draws the first state even if it is impossible (C66_zero_refuted)."},
 {"property": "C67", "status": "partial", "theorems": ["Nip.Props.C67_safe", "Nip.Props.C67_layout_partial", "Nip.Props.C67_lines", "Nip.Props.C67_refuted"], "note": "Every file is read to its end without reading outside an array, and the static variables are then as at the start (C67_safe). For every layout in lines shorter than the buffer with words kept apart, exactly the lexemes written are returned in order (C67_layout_partial). False of the full claim: names like Inflation or Nancy are numbers, a bar without white space is part of a name, white space after a quoted text with a separator inside becomes a mark, and a comment right after a name is part of it (C67_refuted)."},
 {"property": "C68", "status": "partial", "theorems": ["Nip.Props.C68_reads_partial", "Nip.Props.C68_numbers_partial", "Nip.Props.C68_cut", "Nip.Props.C68_label_refuted", "Nip.Props.C68_no_potential_refuted", "Nip.Props.C68_refuted", "Nip.Props.C68_long_name_refuted"], "note": "For every description that makes sense (any order of fields, unknown fields, any grouping of numbers, bare, with a net block or in a class) in any layout of C67, if texts have at most 40 characters, there is a potential, and no node without label follows one with a label, the model read is the one described (C68_reads_partial); the tables have the numbers written if children are declared before their parents (C68_numbers_partial, see C47). False otherwise: a node without label after a labelled one uses freed memory (C68_label_refuted, for all such files), no potential reads a null pointer (C68_no_potential_refuted, for all such files), names of more than 40 characters are not found again (C68_long_name_refuted)."},
 {"property": "C69", "status": "partial", "theorems": ["Nip.Props.C69_once_refuted", "Nip.Props.C69_again_refuted", "Nip.Props.C69_line_refuted", "Nip.Props.C69_variables_refuted", "Nip.Props.C69_refuted", "Nip.Props.C69_fresh_partial", "Nip.Props.C69_described_partial"], "note": "False in the strongest way: in a process at most one call of parse_model returns a model, whatever the files (C69_once_refuted); after a success every sensible file is undefined behaviour (C69_again_refuted); a refused file leaves the rest of its line (C69_line_refuted) and its variables (C69_variables_refuted) to the next one. If nothing is left, the result is determined by the file (C69_fresh_partial, all files; C69_described_partial, up to identities)."},
 {"property": "C70", "status": "partial", "theorems": ["Nip.Props.C70_columns_partial", "Nip.Props.C70_occurring_partial", "Nip.Props.C70_refuted"], "note": "For every network of conditional probabilities without directed cycle and every history, each table written has the numbers of the file for all states of the parents that can occur, whatever other tables share the clique (C70_columns_partial); all numbers if every combination can occur (C70_occurring_partial). False in full: zeros are written for states of the parents that are impossible (C70_refuted)."},
 {"property": "C71", "status": "partial", "theorems": ["Nip.Props.C71_file_partial", "Nip.Props.C71_shape_partial", "Nip.Props.C71_numbers_partial", "Nip.Props.C71_same_partial", "Nip.Props.C71_order_refuted", "Nip.Props.C71_refuted", "Nip.Props.C71_separator_refuted", "Nip.Props.C71_impossible_refuted"], "note": "False in full: the table of a child declared after its parent is read back divided by the wrong sums (C71_order_refuted, from C47), a state name with a separator gives a file that is refused (C71_separator_refuted), numbers for impossible states of the parents become zeros (C71_impossible_refuted). For names without separators: the written file is accepted in a fresh session and gives the same shape (C71_shape_partial); for children declared before their parents the numbers differ by rounding or are zero instead of the number for impossible states of the parents (C71_numbers_partial); the full conclusion if also all states of the parents can occur (C71_same_partial). C71_file_partial composes with C68: file, model, any use, written file, model, for every sensible file of such texts. Identities are renamed; the formatting of numbers by the C library is the assumption Formats; variables without a table are not compared; at most 10^6 states."},
 {"property": "C72", "status": "partial", "theorems": ["Nip.Props.C72_names_partial", "Nip.Props.C72_numbers_partial", "Nip.Props.C72_refuted"], "note": "For every sensible file, laid out in any way, with children declared before their parents: after any use of the model, reset, priors and findings by names (hard or soft, about different nodes), the probabilities of every node found by its name are those of the joint distribution of the file, computed by sums over lists of states (C72_names_partial); with numbers that make distributions, by sums of products of the numbers written (C72_numbers_partial). False in full because of C47: with a parent declared first, 63/71 instead of 9/10 (C72_refuted). What is computed for nodes in any order: C95_answers."},
 {"property": "C73", "status": "partial", "theorems": ["Nip.Props.C73_variable_partial", "Nip.Props.C73_state_partial", "Nip.Props.C73_refuted"], "note": "Unknown variables are refused with an error and nothing changes (C73_variable_partial). Unknown states change nothing either (C73_state_partial), but the code returned is that of success, against nip.h (C73_refuted)."},
 {"property": "C74", "status": "proved", "theorems": ["Nip.Props.C74_step"], "note": "For every model after any history, every uncertain series that fits, every mark and time (C74_step)."},
 {"property": "C75", "status": "partial", "theorems": ["Nip.Props.C75_smoothed_partial", "Nip.Props.C75_refused", "Nip.Props.C75_unknown", "Nip.Props.C75_refuted"], "note": "For every valid set of tables with sensible links (NetFile.Temporal) and every set of series that fits: the text is exactly the line of names and, for possible series, the lines of smoothed probabilities (C75_smoothed_partial). A set without the variable is refused and nothing is written (C75_refused), also a name that is not known (C75_unknown). Impossible data: C96. From the texts of the files on: C82, C95. For other links in full false (C75_refuted, because of C53). The formatting of numbers is a parameter."},
 {"property": "C76", "status": "partial", "theorems": ["Nip.Props.C76_most_probable_partial", "Nip.Props.C76_nothing_hidden", "Nip.Props.C76_refuted"], "note": "For every valid set of tables with sensible links and every set of possible series with something hidden: the state written is the first one with the greatest smoothed probability (C76_most_probable_partial). With nothing hidden the program fails with the output file already emptied (C76_nothing_hidden). Impossible data: C96. For other links in full false (C76_refuted)."},
 {"property": "C77", "status": "partial", "theorems": ["Nip.Props.C77_numbers_partial", "Nip.Props.C77_first_partial", "Nip.Props.C77_refuted"], "note": "For every record the two numbers are weights of one time slice (C77_numbers_partial); the quotient is the conditional probability for the first record, and for all records of files without time links (C77_first_partial). False for later records of files with time links: priors are missing and nothing is carried over (C77_refuted)."},
 {"property": "C78", "status": "partial", "theorems": ["Nip.Props.C78_no_names_refuted", "Nip.Props.C78_two_cliques_refuted", "Nip.Props.C78_named_partial"], "note": "False: without names an array of a time series is freed twice for every file and data (C78_no_names_refuted); with names and at least two cliques a null pointer is used (C78_two_cliques_refuted). With names and one clique everything is defined and the numbers are right (C78_named_partial)."},
 {"property": "C79", "status": "partial", "theorems": ["Nip.Props.C79_unary_partial", "Nip.Props.C79_refused", "Nip.Props.C79_refuted"], "note": "For all sets in which all series observe the same variables first (C79_unary_partial); sets without observed variables are refused (C79_refused). False in full: a series that observes another variable is written as if it observed the first one (C79_refuted)."},
 {"property": "C80", "status": "partial", "theorems": ["Nip.Props.C80_batches_partial", "Nip.Props.C80_limit_partial", "Nip.Props.C80_refuted"], "note": "For every task, preparation and limit: at most two iterations more than asked for, fewer only after convergence or failure (C80_batches_partial); the bound itself if the limit is positive and its remainder by 32 is neither 1 nor 2 (C80_limit_partial). False otherwise: a limit of 33 gives 35 iterations (C80_refuted)."},
 {"property": "C81", "status": "partial", "theorems": ["Nip.Props.C81_last_step_partial", "Nip.Props.C81_refuted"], "note": "For every valid set of tables with sensible links and every set of possible series (C81_last_step_partial); impossible data: C96. For other links in full false (C81_refuted). The logarithm and the formatting are parameters."},
 {"property": "C82", "status": "partial", "theorems": ["Nip.Props.C82_inference_partial", "Nip.Props.C82_refuted"], "note": "From the text of the network file and the text of the data file to the text written, for all files with children declared before parents, sensible links, at most one column for a node and lines long enough (GoodFiles): one line for each line of data with the conditional probabilities given all lines of the group, computed by sums over stories (C82_inference_partial). For impossible data only number and length of the lines are claimed here; what is written then is C96. False in full because of C47 (C82_refuted). What is computed for nodes in any order: C95."},
 {"property": "C83", "status": "partial", "theorems": ["Nip.Props.C83_map_partial", "Nip.Props.C83_refuted"], "note": "As C82: for each line of data the first of the states with the greatest conditional probability, for every node without a column (C83_map_partial, if there is such a node). False in full because of C47: a less probable state is written (C83_refuted)."},
 {"property": "C84", "status": "partial", "theorems": ["Nip.Props.C84_next_partial", "Nip.Props.C84_refuted"], "note": "As C82: for each group of lines the logarithms of the conditional probabilities in the time step of its last line (C84_next_partial); the logarithm and the formatting are parameters. False in full because of C47 (C84_refuted)."},
 {"property": "C85", "status": "proved", "theorems": ["Nip.Props.C85_only_networks", "Nip.Props.C85_layout"], "note": "If parse_model returns a model in a new process, the lexemes are those of exactly one description, and the variables are its nodes with texts cut to 40 characters (C85_only_networks; C85_layout without reference to the lexical analysis). If a field is given twice, the first label and the last states count."},
 {"property": "C86", "status": "partial", "theorems": ["Nip.Props.C86_required_partial", "Nip.Props.C86_sensible_partial", "Nip.Props.C86_exactly", "Nip.Props.C86_names_refuted", "Nip.Props.C86_potentials_refuted", "Nip.Props.C86_fields_refuted", "Nip.Props.C86_states_refuted", "Nip.Props.C86_circle_refuted", "Nip.Props.C86_negative_refuted", "Nip.Props.C86_refuted"], "note": "What acceptance guarantees (C86_required_partial), that this makes sense if the description is careful where nobody looks (C86_sensible_partial), and acceptance exactly for such descriptions (C86_exactly). False in full: names, potentials, fields and states given twice, circles and negative numbers are accepted (C86_..._refuted, C86_refuted)."},
 {"property": "C87", "status": "proved", "theorems": ["Nip.Props.C87_history", "Nip.Props.C87_freed", "Nip.Props.C87_needed"], "note": "Store of cliques, separators and list cells with every access checked; refinement to an abstract list of separators, by induction over histories. The number of live cells is exact (no cell is lost). The conditions on histories are needed: C87_needed. Arrays and potentials inside cliques and separators are not modelled; malloc does not fail."},
 {"property": "C88", "status": "partial", "theorems": ["Nip.Props.C88_lost_partial", "Nip.Props.C88_three_partial", "Nip.Props.C88_refuted"], "note": "False: a candidate that is taken out of the heap and whose cliques are already connected is neither confirmed nor freed; four cliques of a network of six variables lose one (C88_refuted). Proved for all cliques: no access to freed memory, the lists hold exactly the separators of the tree, and what is lost: every pair not joined by the tree that shares more variables than the smallest separator of the tree is lost, and nothing smaller than it (C88_lost_partial). The full claim holds for at most three cliques (C88_three_partial)."},
 {"property": "C89", "status": "partial", "theorems": ["Nip.Props.C89_lines_partial", "Nip.Props.C89_distribution_partial", "Nip.Props.C89_arguments", "Nip.Props.C89_huge_refuted", "Nip.Props.C89_refuted"], "note": "From the text of the network file and the random numbers to the text written, for network files with children declared before parents, sensible links and a probability for every story (GoodNet), and random numbers above zero: columns for all nodes with parents first, and in each place the state in whose interval the random number lies, given all words before (C89_lines_partial). The volume of the random numbers that give a certain file is the product of the probabilities of its series (C89_distribution_partial, state names without commas and line ends). Unusable arguments: C89_arguments; numbers too great for int are undefined behaviour (C89_huge_refuted). In full it is false because rand() can give zero (C89_refuted)."},
 {"property": "C90", "status": "partial", "theorems": ["Nip.Props.C90_trained_partial", "Nip.Props.C90_refuses", "Nip.Props.C90_unread", "Nip.Props.C90_label_refuted", "Nip.Props.C90_refuted", "Nip.Props.C90_endless_refuted"], "note": "From the texts of the network file and the data file and the random numbers to the text written and the learning curve printed, for good files (C82) whose network can be written and read again (C71): the calls of em_learn are exactly those of Spec.AreRuns (start, rounds, ending), all runs but the last fail, and what a new process reads from the output file has the nodes of the network file and the tables of the last call up to rounding (C90_trained_partial). Unusable arguments and files: C90_refuses, C90_unread. In full it is false because of labels (C90_label_refuted, C90_refuted). The program need not stop (C90_endless_refuted)."},
 {"property": "C91", "status": "partial", "theorems": ["Nip.Props.C91_lines_partial", "Nip.Props.C91_likelihood_partial", "Nip.Props.C91_unread", "Nip.Props.C91_no_lines", "Nip.Props.C91_refuted"], "note": "From the texts of the network file and the data file to the text printed, for good files (C82): every line of data (C91_lines_partial, with the potentials that count in its time step), and as stated for first lines of series and for files without links over time (C91_likelihood_partial). Refused files: C91_unread, C91_no_lines. False in full: later lines of a series (C91_refuted). What is computed for nodes in any order: C95."},
 {"property": "C92", "status": "partial", "theorems": ["Nip.Props.C92_joint_partial", "Nip.Props.C92_cliques_refuted", "Nip.Props.C92_no_names_refuted", "Nip.Props.C92_unknown", "Nip.Props.C92_unread", "Nip.Props.C92_no_lines", "Nip.Props.C92_refuted"], "note": "From the texts of the files to the text printed, for good files (C82), at least one name, and networks in which every two nodes are neighbours (C92_joint_partial). Refusals: C92_unknown, C92_unread, C92_no_lines. In full it is false: undefined behaviour without names, for all good files (C92_no_names_refuted, C92_refuted), and if every node has another one that is not its neighbour (C92_cliques_refuted). What is computed for nodes in any order: C95."},
 {"property": "C93", "status": "partial", "theorems": ["Nip.Props.C93_convert_partial", "Nip.Props.C93_unread", "Nip.Props.C93_label_refuted", "Nip.Props.C93_refuted"], "note": "From the texts of the files to the text written, for all files as in C82 with nodes in any order, all spellings of the formats, with or without a column (C93_convert_partial). Refused network files: C93_unread. False in full because of labels (C93_label_refuted, C93_refuted)."},
 {"property": "C94", "status": "partial", "theorems": ["Nip.Props.C94_benchmark_partial", "Nip.Props.C94_no_output", "Nip.Props.C94_refuses", "Nip.Props.C94_unread", "Nip.Props.C94_no_output_refuted", "Nip.Props.C94_label_refuted", "Nip.Props.C94_refuted"], "note": "From the texts of the network file and the data file and the random numbers to the text written and printed, for files as in C82 with nodes in any order with at least two series, all nodes, and any number of calls of em_learn (C94_benchmark_partial): for each series the learning function is called for the evidence of the other series until a call is good enough, and the rows written are the conditional probabilities of the unrolled network of that call, with the node itself not seen; the mean log likelihood is printed. Unusable arguments: C94_refuses; refused network files: C94_unread. Without an output file nothing is written but the exit code is 0 (C94_no_output), so that part of the statement is false (C94_no_output_refuted); false in full also because of labels (C94_label_refuted, C94_refuted)."},
 {"property": "C95", "status": "partial", "theorems": ["Nip.Props.C95_child_first", "Nip.Props.C95_answers", "Nip.Props.C95_inference", "Nip.Props.C95_map", "Nip.Props.C95_next", "Nip.Props.C95_likelihood_partial", "Nip.Props.C95_joint_partial", "Nip.Props.C95_refuted"], "note": "For files as in C82 with nodes in any order (UsableFiles), with the numbers of each potential in proportion over the states of the node of its family that is declared first: questions by name (C95_answers), nipinference, nipmap, nipnext (C95_inference, C95_map, C95_next), niplikelihood as far as it is right in C91 (C95_likelihood_partial) and nipjoint as far as it is right in C92 (C95_joint_partial). If the child is declared first these are the conditional probabilities of the file (C95_child_first). nipconvert and nipbenchmark: C93 and C94 no longer need the order. In full false for niplikelihood and nipjoint for the reasons given in C91 and C92 (C95_refuted)."},
 {"property": "C96", "status": "partial", "theorems": ["Nip.Props.C96_smoothing", "Nip.Props.C96_filtering", "Nip.Props.C96_programs_partial", "Nip.Props.C96_good_partial", "Nip.Props.C96_first_states_partial", "Nip.Props.C96_refuted"], "note": "Forward-backward and forward inference compute the answers of Verif/Spec/Unrolled.lean (NetFile.answer: zeros for impossible data, conditional probabilities for possible data; without links between time steps from the data of the one step) for every valid file with sensible links, any history, series and marks (C96_smoothing, C96_filtering).  The texts written by nipinference, nipmap and nipnext for all data, for files as in C95 in which no potential without parents has only zeros (C96_programs_partial; with children declared first C96_good_partial); nipmap names the first states for an impossible series (C96_first_states_partial).  With a potential of only zeros the claim is false: it is ignored, so numbers other than zeros are written though nothing can happen (C96_refuted)."},
 {"property": "C97", "status": "partial", "theorems": ["Nip.Props.C97_memory_partial", "Nip.Props.C97_freed_partial", "Nip.Props.C97_text", "Nip.Props.C97_copy_refuted", "Nip.Props.C97_null_state_refuted", "Nip.Props.C97_no_states_refuted", "Nip.Props.C97_likelihood_refuted", "Nip.Props.C97_name_refuted", "Nip.Props.C97_leak_refuted", "Nip.Props.C97_refuted"], "note": "For every history of calls on variables that exist, without failing allocations, without copies and with all names of states given, nothing is used before it is set or after it is freed, nothing is freed twice, and the number of blocks in use is that of the variables that exist (C97_memory_partial; zero when all are freed, C97_freed_partial).  Replacing a text is proved also for failing allocations (C97_text).  False otherwise: copies (C97_copy_refuted), NULL among the names of states (C97_null_state_refuted), no names of states (C97_no_states_refuted), failing allocations (C97_likelihood_refuted, C97_name_refuted, C97_leak_refuted); hence C97_refuted."},
 {"property": "C98", "status": "partial", "theorems": ["Nip.Props.C98_every_text", "Nip.Props.C98_select_partial", "Nip.Props.C98_missing_partial", "Nip.Props.C98_header_only_refuted", "Nip.Props.C98_number_refuted", "Nip.Props.C98_hide_exactly", "Nip.Props.C98_hide_partial", "Nip.Props.C98_comma_refuted", "Nip.Props.C98_hundred", "Nip.Props.C98_empty", "Nip.Props.C98_refuted"], "note": "hide_values.awk: what is printed is proved exactly for all files, tables and random numbers (C98_hide_exactly); it is as claimed if the last column of each line is kept (C98_hide_partial), false otherwise (C98_comma_refuted).  select.awk: as claimed for names that do not look like numbers (C98_select_partial, C98_missing_partial); false for columns whose names are equal as numbers (C98_number_refuted) and for the exit code of files with only a header (C98_header_only_refuted).  The text of every file is covered (C98_every_text)."},
 {"property": "C99", "status": "partial", "theorems": ["Nip.Props.C99_result", "Nip.Props.C99_shape_partial", "Nip.Props.C99_states_refuted", "Nip.Props.C99_twice_refuted", "Nip.Props.C99_refuted"], "note": "The algorithm is missing in the code.  Proved: what is returned, exactly, for all arguments (C99_result), and its shape for different variables of the model (C99_shape_partial).  The states are wrong in every network for all possible data that show a variable asked for in a state other than the first one (C99_states_refuted, hence C99_refuted); variables asked for twice make others disappear (C99_twice_refuted)."},
 {"property": "C100", "status": "partial", "theorems": ["Nip.Props.C100_questions", "Nip.Props.C100_filtering_partial", "Nip.Props.C100_smoothing_partial", "Nip.Props.C100_sampling", "Nip.Props.C100_sum_refuted", "Nip.Props.C100_zero_refuted", "Nip.Props.C100_assertion_refuted"], "note": "Machine numbers: any monotone rounding that keeps 0, 1 and rounded numbers; division by zero gives nan, which never occurs in a table.  Proved for every network file with sound tables: all histories and questions (C100_questions), sampling (C100_sampling), filtering and smoothing when the log likelihood is not asked for (C100_filtering_partial, C100_smoothing_partial).  If it is asked for, underflow can make the mass negative and the assertion m2 >= 0 fails (C100_assertion_refuted).  What rounding breaks: sums of one (C100_sum_refuted), and all answers zero for possible evidence (C100_zero_refuted).  Overflow to infinity is excluded by the model of numbers."},
 {"property": "C101", "status": "proved", "theorems": ["Nip.Props.C101_creation", "Nip.Props.C101_creation_states", "Nip.Props.C101_two_states", "Nip.Props.C101_address", "Nip.Props.C101_indices", "Nip.Props.C101_marginal", "Nip.Props.C101_total", "Nip.Props.C101_update", "Nip.Props.C101_evidence", "Nip.Props.C101_init", "Nip.Props.C101_normalise"], "note": "M is the largest int.  Creation is undefined exactly if a product of leading numbers of states exceeds M, and else gives the table (C101_creation; C101_creation_states if every variable has a state; C101_two_states: 31 or more two-state variables).  For tables that fit, every function that multiplies or adds ints gives what it gives with unbounded integers (the other theorems), for numbers of any kind."},
 {"property": "C102", "status": "proved", "theorems": ["Nip.Props.C102_memory", "Nip.Props.C102_freed", "Nip.Props.C102_property", "Nip.Props.C102_creation_refused", "Nip.Props.C102_lost", "Nip.Props.C102_undefined", "Nip.Props.C102_no_list"], "note": "All histories without failing allocations by a ledger invariant (C102_memory, C102_freed); writing a property with any failing allocations (C102_property); creating a potential with each failing allocation (C102_creation_refused, C102_lost, C102_undefined, C102_no_list). Numbers are left out (only lengths), calloc of zero bytes succeeds."},
 {"property": "C103", "status": "proved", "theorems": ["Nip.Props.C103_heap", "Nip.Props.C103_triangulation", "Nip.Props.C103_network", "Nip.Props.C103_neighbours_undefined", "Nip.Props.C103_naive_bayes"], "note": "M is the largest int; the number of pairs of variables is assumed to be at most M (the primary cost counts pairs).  C103_heap: the heap of candidates, exact condition; C103_triangulation, C103_network: nothing overflows if the product over all variables fits; C103_neighbours_undefined: a variable with parents and children whose product is too large; C103_naive_bayes: all numbers of features, exact bound 30 for 32 bits."},
 {"property": "C104", "status": "proved", "theorems": ["Nip.Props.C104_questions", "Nip.Props.C104_filtering", "Nip.Props.C104_smoothing", "Nip.Props.C104_sampling"], "note": "The operations of the numbers are quantified over (no laws), and the tables may hold anything; comparisons are those of some linear order.  For filtering and smoothing the log likelihood is not asked for, as stated (otherwise the assertion can fail, C100_assertion_refuted)."},
 {"property": "C105", "status": "proved", "theorems": ["Nip.Props.C105_history", "Nip.Props.C105_questions", "Nip.Props.C105_smoothing", "Nip.Props.C105_filtering", "Nip.Props.C105_questions_limit", "Nip.Props.C105_smoothing_limit", "Nip.Props.C105_filtering_limit"], "note": "Relative errors: one count of roundings N holds for all machines (all roundings, all bounds e); machines are given files and evidence that are k times rounded. C105_history compares with the exact run for questions at any time, C105_questions with the conditional probabilities, C105_filtering / C105_smoothing with the answers of C96 (log likelihood not asked for), *_limit: answers come arbitrarily near. The value of the probability mass (the only subtraction) is covered by C107. Roundings without bounded relative error (underflow) are excluded: C100 shows what they break."},
 {"property": "C106", "status": "proved", "theorems": ["Nip.Props.C106_memory", "Nip.Props.C106_freed", "Nip.Props.C106_filter", "Nip.Props.C106_smooth", "Nip.Props.C106_smoothing_undefined", "Nip.Props.C106_mlss", "Nip.Props.C106_read", "Nip.Props.C106_read_lost", "Nip.Props.C106_observed_lost", "Nip.Props.C106_split_undefined", "Nip.Props.C106_write", "Nip.Props.C106_write_lost"], "note": "All histories without failing allocations by a ledger invariant (C106_memory, C106_freed); each function for every place at which allocations fail and memory of any contents (C106_filter, C106_smooth, C106_smoothing_undefined, C106_mlss, C106_read, C106_write); what is lost: C106_read_lost and C106_split_undefined are concrete runs, C106_observed_lost and C106_write_lost hold for all files and memories. A data file and a potential are one block each; of arrays of numbers only the length is kept; a call for zero bytes succeeds."},
 {"property": "C107", "status": "proved", "theorems": ["Nip.Props.C107_mass", "Nip.Props.C107_mass_limit", "Nip.Props.C107_filtering", "Nip.Props.C107_smoothing", "Nip.Props.C107_filtering_likelihood", "Nip.Props.C107_smoothing_likelihood"], "note": "C107_mass: the mass is the total weight up to one count of roundings for all machines; C107_mass_limit: on fine machines it is as near as wanted, never negative, and zero exactly when the evidence is impossible. C107_filtering / C107_smoothing: with the log likelihood asked for the assertion holds, the answers are those of C96 up to N roundings, the log likelihood is the one calculated from masses whose quotients are the exact probabilities up to roundings, and it is the lowest number for impossible data (with links). C107_*_likelihood (real numbers, natural logarithm accurate up to e): the log likelihood is off by at most a constant times e. Needs roundings that are accurate for negative numbers as well."},
 {"property": "C108", "status": "proved", "theorems": ["Nip.Props.C108_memory", "Nip.Props.C108_open", "Nip.Props.C108_early", "Nip.Props.C108_series_lost", "Nip.Props.C108_any_failure", "Nip.Props.C108_list_undefined", "Nip.Props.C108_array_undefined", "Nip.Props.C108_line_lost", "Nip.Props.C108_state_lost"], "note": "C108_memory: all texts of files, separators, names and contents of the memory, no failing allocation. C108_open: opening and closing for every place at which allocations fail. C108_early: any of the first allocations of the analysis (line counts, fields of the first line, names of columns, array of lists) may fail; C108_series_lost: read_timeseries then loses the file. C108_any_failure: for every set of failing allocations, the start of read_timeseries leaves everything else in memory as it was, and once the file is open every error loses it. C108_list_undefined, C108_array_undefined, C108_line_lost and C108_state_lost are runs that show what happens at other failures. FILE* is not modelled: whether the file can be opened and its lines are inputs. A call for zero bytes succeeds."},
 {"property": "C109", "status": "proved", "theorems": ["Nip.Props.C109_memory", "Nip.Props.C109_ample", "Nip.Props.C109_freed", "Nip.Props.C109_find", "Nip.Props.C109_cliques", "Nip.Props.C109_cliques_undefined"], "note": "For every set of failing allocations and every history of calls. C109_memory: no undefined step; each graph is NULL (then some allocation fails) or in memory with exactly its nodes and edges; the blocks in use. C109_ample: no NULL without failures. C109_freed: nothing in use after all was freed. C109_find: searching. C109_cliques: the copies before the triangulation with memory for them; C109_cliques_undefined: if any of the nine allocations fails, NULL is used. Entries of the table and of the matrix of a changed copy are computed by the functions of Graph.lean and written at once."},
 {"property": "C110", "status": "proved", "theorems": ["Nip.Props.C110_memory", "Nip.Props.C110_full", "Nip.Props.C110_update_lost"], "note": "C110_memory: for every memory, every set of failing allocations and every history without growth: no undefined step, the answers and the queue are those of the queue of C13 when some calls have no memory, the blocks in use, nothing else changed, freeing gives the memory from before. C110_full: insertion into a full queue after any history (reported; a block lost; undefined). C110_update_lost: a replacement of the first candidate that could not be noted. Contents are numbers, the cost functions are arguments."},
 {"property": "C111", "status": "proved", "theorems": ["Nip.Props.C111_clique", "Nip.Props.C111_sepset", "Nip.Props.C111_confirm"], "note": "For every memory and every set of failing allocations. C111_clique: the clique with its sorted variables and two tables, or NULL and what is lost, or undefined, as said by what becomes of two tables; freeing gives the memory from before. C111_sepset: the same for the separator of any two cliques in memory, undefined also without memory for the numbers of states. C111_confirm: first in both lists (linked in both directions), or reported with a block lost if one of two allocations failed. Freeing a clique with separators is C87."},
 {"property": "C112", "status": "proved", "theorems": ["Nip.Props.C112_consistent", "Nip.Props.C112_each_request", "Nip.Props.C112_probability"], "note": "make_consistent and get_probability with an oracle of refused requests, for every valid file, every history and every state of the counters. C112_consistent: exactly four requests per separator with variables; all granted gives the result of unlimited memory and nothing kept, any refusal is undefined behaviour (nip_message_pass does not check nip_mapper). C112_each_request: each request alone is fatal. C112_probability: NULL, nothing changed, nothing lost."},
 {"property": "C113", "status": "proved", "theorems": ["Nip.Props.C113_history", "Nip.Props.C113_undefined", "Nip.Props.C113_observation", "Nip.Props.C113_posterior", "Nip.Props.C113_unfurnished"], "note": "Every history of calls on a model read from a file with a potential for every variable, whichever requests fail: undefined exactly if an inference has a request refused (C113_undefined); otherwise the model of the history without the refused calls, with the counts of requests and blocks (C113_history); an observation without memory reports ENOMEM and changes nothing (C113_observation); answers are the probabilities given what the served calls told (C113_posterior). C113_unfurnished shows that the condition on the file is needed. The file is read with unlimited memory."},
 {"property": "C114", "status": "proved", "theorems": ["Nip.Props.C114_step", "Nip.Props.C114_step_unlimited", "Nip.Props.C114_step_lost", "Nip.Props.C114_named"], "note": "C114_step: success is reported whichever values are lost, and the model is the one of the values kept; C114_step_unlimited: what the step does with unlimited memory; C114_step_lost: all requests refused leave the model as before and report success. C114_named: insert_hard_evidence for a known variable, with the exact condition for undefined behaviour among the requests of inference. The file is read with unlimited memory."},
 {"property": "C115", "status": "proved", "theorems": ["Nip.Props.C115_filtering", "Nip.Props.C115_answers", "Nip.Props.C115_enough"], "note": "C115_filtering: exactly when the behaviour is undefined, and otherwise the results are those of unlimited memory for the series without the values lost, with nothing more allocated; C115_answers: what the answers are then; C115_enough: if no request of the call is refused the results are those for the series itself. The likelihood is not asked for; the arrays for the results and the message are allocated before, and the file is read with unlimited memory."},
 {"property": "C116", "status": "proved", "theorems": ["Nip.Props.C116_filtering", "Nip.Props.C116_likelihood"], "note": "C116_filtering: the call for the thinned series is defined with unlimited memory, and results, likelihood and model are the ones of that call if no request for a message or of inference is refused; otherwise undefined. C116_likelihood: what the likelihood reported is then (under the condition of C57). The arrays for the results and the message are allocated before, and the file is read with unlimited memory."},
 {"property": "C117", "status": "proved", "theorems": ["Nip.Props.C117_smoothing", "Nip.Props.C117_same", "Nip.Props.C117_enough"], "note": "C117_smoothing: undefined if a request for a message or of inference is refused in either phase; otherwise the call equals the run with unlimited memory in which each phase is given the series without the values refused in that phase (twoPhases; with one and the same series it is forward_backward_inference, lemma twoPhases_same). C117_same: the same values lost in both phases, the answers are conditional probabilities. C117_enough: no request refused, the results are those for the series itself. The arrays for results and messages are allocated before, the likelihood is not asked for, and the file is read with unlimited memory."}
]}
