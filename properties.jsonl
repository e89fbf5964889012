{"id": "C01", "title": "Index tuples and storage cells are in exact one-to-one correspondence", "statement": "For every potential, translating an in-range tuple of state indices to a storage position and translating that position back gives the same tuple, and the other way round; every in-range tuple lands strictly inside the allocated table, so two different tuples never share a cell and no in-range access leaves the table.", "quantifier": "all dimensionalities (including zero), all lists of positive cardinalities, all in-range index tuples and all positions", "why_tests_cant": "Tests check a handful of shapes; a wrong stride is invisible for square or one-dimensional tables and only shows for some mixture of cardinalities.", "anchors": ["src/nippotential.c: nip_get_potential_pointer, nip_inverse_mapping", "src/nippotential.h: nip_inverse_mapping"]}
{"id": "C02", "title": "Writing one cell changes that cell and nothing else", "statement": "After setting the value of a potential at an in-range index tuple, reading the same tuple returns that value and reading any other in-range tuple returns what it returned before; size and shape never change. By induction, after any sequence of writes every cell holds the last value written to it.", "quantifier": "all potentials, all in-range index tuples, all sequences of writes", "why_tests_cant": "Aliasing between cells depends on the shape and on the pair of tuples; the space of pairs and of write histories is unbounded.", "anchors": ["src/nippotential.c: nip_get_potential_value, nip_set_potential_value, nip_get_potential_pointer"]}
{"id": "C03", "title": "Marginalisation returns exactly the sum over the dropped variables", "statement": "Marginalising a potential onto a chosen list of distinct dimensions gives, for every tuple of the kept dimensions, the sum of the source over all tuples that agree with it there; source values are untouched, earlier contents of the destination do not matter, the scalar destination receives the grand total, and no cell outside either table is touched. A destination with more dimensions than the source is rejected with an error and left unchanged.", "quantifier": "all shapes with positive cardinalities, all contents, all lists of distinct kept dimensions, all previous destination contents", "why_tests_cant": "Every belief computed by the library goes through this; tests compare a few printed tables.", "anchors": ["src/nippotential.c: nip_general_marginalise, nip_choose_potential_indices"]}
{"id": "C04", "title": "Marginalising onto one variable by the fast path agrees with the general path", "statement": "The single-variable marginal equals the general marginal onto that one dimension, i.e. for each state the sum of all cells having that state; it writes exactly that many result entries; a variable number that is negative or beyond the dimensionality is rejected and nothing is written.", "quantifier": "all potentials with positive cardinalities, all variable numbers", "why_tests_cant": "The fast path uses a different, partial index decomposition; agreement on samples does not give agreement for all shapes and variable positions.", "anchors": ["src/nippotential.c: nip_total_marginalise, nip_general_marginalise"]}
{"id": "C05", "title": "Marginalisation preserves total mass and composes", "statement": "The entries of any marginal sum to the same total as the source, and marginalising in two steps gives the same table as marginalising once with the composed choice of dimensions, so it does not matter in what order variables are summed out.", "quantifier": "all potentials, all chains of distinct kept dimensions", "why_tests_cant": "Order independence over arbitrary subsets of dimensions is a universally quantified algebraic law.", "anchors": ["src/nippotential.c: nip_general_marginalise"]}
{"id": "C06", "title": "Normalisation yields a distribution and never distorts ratios", "statement": "If the entries of an array or potential sum to something non-zero, after normalisation they sum to one and each is the old entry divided by the old sum; if they sum to zero nothing changes; normalising twice is the same as normalising once; scaling the input by any non-zero constant does not change the result.", "quantifier": "all arrays and potentials of any size, all non-zero scale factors", "why_tests_cant": "Needs all inputs, including the zero-sum case and cancellation between positive and negative entries.", "anchors": ["src/nippotential.c: nip_normalise_array, nip_normalise_potential"]}
{"id": "C07", "title": "Conditional normalisation makes every column a distribution", "statement": "After normalising a potential as a conditional distribution of its first variable, for every combination of the other variables the entries over the first variable sum to one, or are all exactly as before if they summed to zero; entries of different combinations never influence each other; repeating it changes nothing.", "quantifier": "all potentials with at least one dimension and positive cardinalities", "why_tests_cant": "Block boundaries depend on the shape; a test with equal cardinalities cannot distinguish wrong blocks.", "anchors": ["src/nippotential.c: nip_normalise_cpd"]}
{"id": "C08", "title": "The documented equivalence of the two conditional normalisations", "statement": "As documented in the header, normalising as a conditional distribution is the same as normalising along dimension 0, for every potential.", "quantifier": "all potentials", "why_tests_cant": "An equivalence of two procedures for all inputs.", "anchors": ["src/nippotential.h: nip_normalise_cpd, nip_normalise_dimension", "src/nippotential.c: nip_normalise_cpd, nip_normalise_dimension"]}
{"id": "C09", "title": "Multiplying and dividing into a potential acts cell by cell, with x/0 taken as 0", "statement": "Updating a target by a numerator and/or a denominator over a subset of its dimensions multiplies each cell by the matching numerator cell and divides it by the matching denominator cell, a zero denominator giving exactly zero; numerator and denominator are unchanged; if neither is given, or both are given with different dimensionality or more dimensions than the target, an error is returned and the target is unchanged. No call with a mapping into the target's dimensions reads outside a table.", "quantifier": "all shapes, all mappings, presence or absence of each operand, all contents including zeros", "why_tests_cant": "Covers all zero patterns, shapes and optional operands at once, and memory safety of all of them.", "anchors": ["src/nippotential.c: nip_update_potential"]}
{"id": "C10", "title": "Evidence multiplication acts along one variable only", "statement": "Updating a potential with an evidence vector on one variable multiplies each cell by the entry for the state of that variable and divides by the old entry when one is given and non-zero; all other structure is untouched. Replacing evidence a by b when a is nowhere zero, then b by c when b is nowhere zero, is the same as replacing a by c.", "quantifier": "all potentials, all variables of them, all evidence vectors", "why_tests_cant": "Zero patterns and shapes are unbounded.", "anchors": ["src/nippotential.c: nip_update_evidence"]}
{"id": "C11", "title": "Initialising a potential with several factors does not depend on their order", "statement": "Multiplying a list of factor tables into a potential gives, in each cell, the product of the matching factor cells, whatever the order in which the factors are multiplied in; a factor without a mapping is accepted only if it has the same number of cells, otherwise an error is returned and nothing changes.", "quantifier": "all potentials, all lists of factors and mappings, all permutations of the list", "why_tests_cant": "Permutations of arbitrary lists cannot be enumerated.", "anchors": ["src/nippotential.c: nip_init_potential", "src/nipjointree.c: nip_init_clique"]}
{"id": "C12", "title": "Retraction restores the reference exactly or refuses", "statement": "Retracting a potential to a reference of the same shape makes every cell equal to the reference cell; any difference in dimensionality or in any cardinality is refused with an error and the potential stays exactly as it was.", "quantifier": "all pairs of potentials", "why_tests_cant": "All shape mismatches and contents.", "anchors": ["src/nippotential.c: nip_retract_potential"]}
{"id": "C13", "title": "The priority queue hands elements out in cost order and loses none", "statement": "After inserting any elements into the queue and ordering it, repeatedly taking the cheapest element yields every inserted element exactly once, in non-decreasing order of (primary, secondary) cost, and then reports that the queue is empty.", "quantifier": "all finite sequences of insertions with arbitrary costs, including ties, into a queue created with at least that capacity (growing beyond it is C15)", "why_tests_cant": "Sift-down correctness over all heap sizes and tie patterns needs induction.", "anchors": ["src/nipheap.c: nip_heap_insert, nip_build_min_heap, nip_heap_extract_min, nip_min_heapify, nip_heap_less_than"]}
{"id": "C14", "title": "Changing the cost of a queued element keeps the queue correct", "statement": "After replacing an element of an ordered queue and re-ordering it, the next element taken out has the least cost of those present, whatever happened to the cost of the replaced element.", "quantifier": "all ordered queues, all positions, all new costs", "why_tests_cant": "Whether an update needs to move up or down depends on all costs.", "anchors": ["src/nipheap.c: nip_set_heap_item, nip_build_min_heap"]}
{"id": "C15", "title": "Inserting into the queue never writes outside allocated memory", "statement": "For every initial capacity accepted by the constructor and every number of insertions, each insertion writes inside the memory currently owned by the queue.", "quantifier": "all initial capacities, all numbers of insertions, any pointer size of at least two bytes", "why_tests_cant": "A bad growth formula only faults for some capacities and allocators.", "anchors": ["src/nipheap.c: nip_new_heap, nip_heap_insert"]}
{"id": "C16", "title": "Every variable created gets its own identity", "statement": "In any sequence of variable creations no two variables ever compare equal, identities increase strictly, and a fresh variable starts with no evidence (every state has likelihood one).", "quantifier": "all sequences of creations, all cardinalities", "why_tests_cant": "Uniqueness over an unbounded history.", "anchors": ["src/nipvariable.c: nip_new_variable, nip_equal_variables, nip_reset_likelihood"]}
{"id": "C17", "title": "Variable set union and intersection are set operations that keep order", "statement": "For arrays without repeated variables, the union contains exactly the variables in either, once each, those of the first array first and in order; the intersection contains exactly those in both, in the order of the first array; the reported sizes are right and nothing is written outside the result arrays.", "quantifier": "all pairs of arrays without repetitions", "why_tests_cant": "All overlaps, orders and sizes.", "anchors": ["src/nipvariable.c: nip_variable_union, nip_variable_isect"]}
{"id": "C18", "title": "The dimension mapping locates every variable of a subset", "statement": "Mapping a subset of variables into a set gives for each subset variable its position in the set, in subset order; composing with the set returns the subset. If the subset is larger than the set an error is reported.", "quantifier": "all arrays of distinct variables and all sub-arrays in any order", "why_tests_cant": "A wrong position silently permutes a probability table for some orders only.", "anchors": ["src/nipvariable.c: nip_mapper"]}
{"id": "C19", "title": "Sorting variables orders them by identity", "statement": "Sorting an array of variables leaves a permutation of the array in increasing order of identity.", "quantifier": "all arrays of variables of any length", "why_tests_cant": "An off-by-one in a sorting loop passes on many small or already ordered inputs.", "anchors": ["src/nipvariable.c: nip_sort_variables"]}
{"id": "C20", "title": "Linked lists behave like sequences", "statement": "Any mix of appends, prepends and emptying leaves a list whose forward traversal is the expected sequence, whose backward traversal is its reverse, whose length field is the number of elements, and whose array conversion is the same sequence.", "quantifier": "all operation histories, all element values", "why_tests_cant": "Pointer surgery mistakes show only after particular mixes of operations, e.g. prepend to an empty list.", "anchors": ["src/niplists.c: nip_append_int, nip_prepend_int, nip_int_list_to_array, nip_empty_int_list (and the double, string, int-array, string-pair and interface variants)", "src/nipvariable.c: nip_append_variable, nip_prepend_variable, nip_variable_list_to_array"]}
{"id": "C21", "title": "Searching attributes returns the value of the first matching key", "statement": "Looking up a key in a key/value list returns the value of the earliest entry with that key, and reports absence exactly when no entry has it.", "quantifier": "all lists and keys", "why_tests_cant": "All lists.", "anchors": ["src/niplists.c: nip_string_pair_list_search, nip_string_list_contains, nip_int_array_list_contains_subset"]}
{"id": "C22", "title": "A graph stores exactly the nodes and edges that were added", "statement": "After any sequence of node and edge additions, every added node (up to the declared capacity) is found at its insertion position, additions beyond the capacity are refused without changing the graph, and two nodes are reported linked exactly when that edge was added, in that direction.", "quantifier": "all capacities, all sequences of node and edge additions with distinct variables", "why_tests_cant": "The identity-to-index table depends on the order and range of identities.", "anchors": ["src/nipgraph.c: nip_new_graph, nip_graph_add_node, nip_graph_add_child, nip_graph_linked, nip_graph_index, nip_build_graph_index"]}
{"id": "C23", "title": "Asking a graph about a node it does not contain is answered with 'not found'", "statement": "Looking up any variable in a graph returns its position if it is there and -1 otherwise, without touching memory outside the index table.", "quantifier": "all graphs, all variables, in the graph or not", "why_tests_cant": "The access goes wrong only for identities outside the range seen by the graph.", "anchors": ["src/nipgraph.c: nip_graph_index"]}
{"id": "C24", "title": "Moralisation marries exactly the co-parents", "statement": "In the moralised copy two nodes are linked exactly if they were linked before or have a common child; the original graph is unchanged.", "quantifier": "all directed graphs", "why_tests_cant": "All graphs.", "anchors": ["src/nipgraph.c: nip_moralise_graph"]}
{"id": "C25", "title": "Interface edges and undirecting add exactly the required links", "statement": "Adding interface edges links exactly, besides the existing edges, each pair of outgoing-interface variables and each pair of previous-outgoing-interface variables; making a graph undirected links two nodes exactly if they were linked in some direction; originals are unchanged.", "quantifier": "all graphs and all interface markings", "why_tests_cant": "All graphs and markings.", "anchors": ["src/nipgraph.c: nip_add_interface_edges, nip_make_graph_undirected"]}
{"id": "C26", "title": "Triangulation produces cliques that cover the graph and none is redundant", "statement": "For every undirected graph and whatever order the elimination heuristic picks: every node and every pair of linked nodes is contained in some produced clique, no produced clique contains another, and there are between one and as many cliques as nodes for a non-empty graph.", "quantifier": "all undirected graphs, all elimination orders", "why_tests_cant": "All graphs and all orders the heuristic may choose.", "anchors": ["src/nipgraph.c: nip_triangulate_graph, nip_update_cluster_heap, nip_build_cluster_heap, nip_cluster_list_to_clique_array"]}
{"id": "C27", "title": "Every variable's family, and the time-slice interface, fits in one clique", "statement": "After converting any Bayesian network to a clique tree there is, for each variable, a clique containing it and all its parents, and a clique containing all outgoing interface variables; so parsing can place every conditional table and the temporal messages always have a clique to go to.", "quantifier": "all networks and interface markings, all elimination orders", "why_tests_cant": "Must hold for every model a user can write.", "anchors": ["src/nipgraph.c: nip_graph_to_cliques", "src/nipjointree.c: nip_find_family, nip_find_clique", "src/huginnet.y: parsed_potentials_to_jtree"]}
{"id": "C28", "title": "The clique graph built is a tree", "statement": "The separators confirmed between the produced cliques form a spanning tree: one fewer separators than cliques, every two cliques connected by exactly one path.", "quantifier": "all sets of cliques, all tie-breaks between separators", "why_tests_cant": "All clique families.", "anchors": ["src/nipgraph.c: nip_create_sepsets, nip_build_sepset_heap", "src/nipjointree.c: nip_cliques_connected, nip_confirm_sepset"]}
{"id": "C29", "title": "The tree built is a junction tree (running intersection)", "statement": "If a variable is in two cliques, it is in every clique and separator on the path between them in the tree built by the library.", "quantifier": "all networks, all elimination orders and tie-breaks", "why_tests_cant": "Exact inference is wrong without it; needs the maximal-spanning-tree argument over all chordal graphs.", "anchors": ["src/nipgraph.c: nip_triangulate_graph, nip_create_sepsets, nip_sepset_primary_cost"]}
{"id": "C30", "title": "Building the clique tree reports success exactly when a tree was built", "statement": "Connecting any non-empty array of cliques into a tree returns success when the tree is complete.", "quantifier": "all numbers of cliques, including one", "why_tests_cant": "Corner case on the count; quantifies over all sizes.", "anchors": ["src/nipgraph.c: nip_create_sepsets, nip_build_sepset_heap", "src/nipheap.c: nip_new_heap"]}
{"id": "C31", "title": "Passing a message never changes the joint distribution represented by the tree", "statement": "The product of all clique tables divided by the product of all separator tables is the same function before and after a message between two neighbouring cliques.", "quantifier": "all trees, all non-negative contents, all messages, all sequences of messages", "why_tests_cant": "An invariant over all message schedules.", "anchors": ["src/nipjointree.c: nip_message_pass, nip_collect_evidence, nip_distribute_evidence"]}
{"id": "C32", "title": "After inference every clique holds the exact marginal", "statement": "After making a model consistent, the table of every clique equals the sum, over all variables outside the clique, of the product of all model parameters, entered priors and current evidence; in particular neighbouring cliques agree on shared variables.", "quantifier": "all junction trees, all parameters, all evidence, any history of evidence entries, resets and inference calls before", "why_tests_cant": "Exactness of belief propagation needs induction over trees.", "anchors": ["src/nip.c: make_consistent", "src/nipjointree.c: nip_collect_evidence, nip_distribute_evidence, nip_message_pass"]}
{"id": "C33", "title": "The posterior reported for a variable is Bayes' rule", "statement": "The probability vector returned for a variable of a consistent model is non-negative, sums to one whenever the evidence is possible, and each entry is the ratio of the total weight of complete assignments having that state to the total weight of all assignments.", "quantifier": "all models, all evidence with positive total weight, all variables", "why_tests_cant": "Exactness for all models and evidence.", "anchors": ["src/nip.c: get_probability", "src/nipjointree.c: nip_marginalise_clique, nip_find_family"]}
{"id": "C34", "title": "The reported probability mass is the likelihood of the evidence", "statement": "The probability mass of a consistent model equals the total weight of all assignments (the product of parameters, priors and evidence summed over everything), so the ratio of the mass after and before entering evidence is the conditional likelihood of the evidence.", "quantifier": "all models, all evidence histories", "why_tests_cant": "The code computes it as a signed sum over cliques and separators; equality with the total weight relies on tree shape and calibration.", "anchors": ["src/nip.c: model_prob_mass", "src/nipjointree.c: nip_probability_mass, nip_clique_mass, nip_neg_sepset_mass"]}
{"id": "C35", "title": "The latest evidence about a variable wins, whatever came before", "statement": "After any history of evidence entries the weight of each assignment is that of the parameters times the latest evidence vector of every variable: older evidence on the same variable leaves no trace, and the order in which different variables got their evidence is irrelevant.", "quantifier": "all histories of evidence entries with non-negative vectors, including contradictory ones", "why_tests_cant": "Incremental update by multiplication and division versus full retraction depends on zero patterns through the whole history.", "anchors": ["src/nipjointree.c: nip_enter_evidence, nip_enter_index_observation, nip_global_retraction", "src/nipvariable.c: nip_update_likelihood"]}
{"id": "C36", "title": "Entering evidence never cancels the priors of the model", "statement": "Priors once multiplied into a model remain part of it for any later evidence until the model is reset.", "quantifier": "all histories of prior and evidence entries", "why_tests_cant": "Only particular contradictory evidence triggers the retraction path.", "anchors": ["src/nip.c: use_priors", "src/nipjointree.c: nip_enter_prior, nip_enter_evidence, nip_global_retraction"]}
{"id": "C37", "title": "Resetting forgets all evidence", "statement": "After a reset the model is in the same state whatever evidence, priors and inference preceded it: clique tables equal the parameters, separators are one, all likelihoods are one and no prior counts as entered; resetting twice is the same as once.", "quantifier": "all histories", "why_tests_cant": "All histories.", "anchors": ["src/nip.c: reset_model", "src/nipjointree.c: nip_global_retraction"]}
{"id": "C38", "title": "Priors enter once per reset, and only where they belong", "statement": "However often priors are requested between resets, each independent variable's prior is multiplied in at most once; with a previous time slice, variables replaced by that slice get none.", "quantifier": "all sequences of resets and prior requests, all interface markings", "why_tests_cant": "A history property.", "anchors": ["src/nip.c: use_priors, reset_model"]}
{"id": "C39", "title": "Observations that name no state change nothing; observations of a state rule out all others", "statement": "Entering an observation by an unknown state name or a negative index leaves the model unchanged; entering a known state gives every other state posterior zero.", "quantifier": "all models, variables, names, indices", "why_tests_cant": "All inputs, including out of range indices.", "anchors": ["src/nipjointree.c: nip_enter_observation, nip_enter_index_observation", "src/nipvariable.c: nip_variable_state_index"]}
{"id": "C40", "title": "Evidence on different variables commutes", "statement": "Entering evidence on two different variables in either order and then making the model consistent gives the same clique tables.", "quantifier": "all models, all pairs of variables and evidence vectors, any previous history", "why_tests_cant": "All pairs and histories.", "anchors": ["src/nipjointree.c: nip_enter_evidence"]}
{"id": "C41", "title": "Tokenising with the counted number of tokens is memory safe and complete", "statement": "For every string and every setting of quoting, separators and whitespace, asking for exactly as many tokens as the counter reports succeeds, writes exactly two indices per token inside the result array, and the indices are in ascending order and inside the string.", "quantifier": "all strings, all separator sets, all option combinations", "why_tests_cant": "The two functions are separate hand-written state machines that must agree on every input.", "anchors": ["src/nipstring.c: nip_count_tokens, nip_tokenise"]}
{"id": "C42", "title": "Asking the tokeniser for fewer tokens is memory safe", "statement": "Asking for any number n of tokens up to the number present writes exactly 2n indices, all inside the result array, and yields the first n tokens.", "quantifier": "all strings, options and n", "why_tests_cant": "Overflow only for particular token layouts at the boundary.", "anchors": ["src/nipstring.c: nip_tokenise"]}
{"id": "C43", "title": "Tokens contain no unquoted separators and nothing is lost", "statement": "Outside quotes a token contains no separator and no whitespace (when whitespace separates), a separator token is exactly one separator, and every character that is neither separator, whitespace nor quote belongs to exactly one token. Text inside quotes is never taken for a separator.", "quantifier": "all strings and options", "why_tests_cant": "All strings.", "anchors": ["src/nipstring.c: nip_tokenise, nip_count_tokens"]}
{"id": "C44", "title": "Time series are delimited by blank lines, and the row counts are exact", "statement": "For every data file, the number of time series found is the number of maximal groups of non-blank lines after the header, and the length recorded for each series is the number of lines in its group; no series index leaves the count array.", "quantifier": "all files (sequences of lines)", "why_tests_cant": "Any arrangement of blank lines at start, middle and end.", "anchors": ["src/nipparsers.c: nip_analyse_data_file, count_data_rows"]}
{"id": "C45", "title": "State names of a data column are collected without repetition", "statement": "After reading a data file the state names of each column are exactly the distinct non-missing values occurring in that column, each listed once.", "quantifier": "all files", "why_tests_cant": "All files.", "anchors": ["src/nipparsers.c: accumulate_state_names, nip_analyse_data_file, null_observation"]}
{"id": "C46", "title": "Reading a conditional table puts every number at the right place", "statement": "When a model file lists a conditional table for a child and its parents in any order, the number given for a combination of states is the number found for that combination in the stored potential, whatever the identities of the variables.", "quantifier": "all families, all orders of variable identities, all numbers", "why_tests_cant": "All permutations of identities.", "anchors": ["src/nipjointree.c: nip_create_potential", "src/huginnet.y: potentialDeclaration"]}
{"id": "C47", "title": "A valid conditional table in a model file is not changed by parsing", "statement": "If for every parent combination the numbers given for the child sum to one, the stored potential holds exactly those numbers.", "quantifier": "all families and all orders of variable identities", "why_tests_cant": "Depends on which variable of the family was declared first.", "anchors": ["src/huginnet.y: potentialDeclaration (nip_create_potential then nip_normalise_cpd)", "src/nippotential.c: nip_normalise_cpd"]}
{"id": "C48", "title": "Random sampling picks state i exactly when the random number falls in its interval", "statement": "Drawing from a distribution returns the first state whose cumulative probability reaches the random number, always a valid state index, and never a state of probability zero.", "quantifier": "all distributions of any size, all random numbers in [0,1]", "why_tests_cant": "Boundary random values have vanishing probability in tests.", "anchors": ["src/nip.c: lottery"]}
{"id": "C49", "title": "Sampling visits parents before children and every variable once", "statement": "The order in which a data generator samples the variables of a network lists each variable exactly once with all its parents earlier, and the ordering loop terminates for every acyclic network.", "quantifier": "all acyclic networks, any order of variable declaration", "why_tests_cant": "Termination and order for all DAGs.", "anchors": ["src/nip.c: generate_data"]}
{"id": "C50", "title": "Training always stops and reports the true reason", "statement": "Parameter learning stops after at most max(3, requested maximum) iterations whatever the likelihoods are; it reports convergence only if the last improvement per step was at most the threshold, and the iteration limit only if the limit was reached; it reports failure exactly if the likelihood dropped by more than the threshold or was invalid.", "quantifier": "all sequences of likelihood values, thresholds and limits", "why_tests_cant": "Loop control over arbitrary real sequences.", "anchors": ["src/nip.c: em_learn"]}
{"id": "C51", "title": "Learned parameters are proper conditional distributions", "statement": "After each parameter update every table written into the model sums to one over the child for every combination of parents (given positive expected counts), and the product of tables in the cliques is the product of the new conditional tables.", "quantifier": "all networks, all non-negative expected counts", "why_tests_cant": "All count patterns and family layouts.", "anchors": ["src/nip.c: m_step", "src/nippotential.c: nip_normalise_cpd, nip_init_potential"]}
{"id": "C52", "title": "Filtering results do not depend on future data", "statement": "The posterior that forward inference reports for a time step depends only on the observations up to that step.", "quantifier": "all models, all time series, all continuations", "why_tests_cant": "A relational property over pairs of histories of any length.", "anchors": ["src/nip.c: forward_inference"]}
{"id": "C53", "title": "Forward inference computes the filtering distribution of the unrolled network", "statement": "The posterior that forward inference reports for a variable at time t equals the posterior of that variable in the network unrolled over slices 0..t given the observations of those slices.", "quantifier": "all models with temporal links, all time series of any length", "why_tests_cant": "Induction over time.", "anchors": ["src/nip.c: forward_inference, start_timeslice_message_pass, finish_timeslice_message_pass"]}
{"id": "C54", "title": "Setting and reading back observations in a time series", "statement": "After setting an observation by state name at a valid time for an observed variable, reading it back returns that name and every other observation is unchanged; unknown variables and names are refused with an error; a missing observation reads back as absent.", "quantifier": "all series, variables, times, names", "why_tests_cant": "All inputs, including missing values.", "anchors": ["src/nip.c: set_observation, get_observation"]}
{"id": "C55", "title": "Error bookkeeping reflects the history", "statement": "The last-error query returns the code of the most recent report since the last reset (zero if none) and the error counter the number of reports since then; reporting returns the code it was given.", "quantifier": "all histories of reports and resets", "why_tests_cant": "A history property.", "anchors": ["src/niperrorhandler.c: nip_report_error, nip_reset_error_handler, nip_check_error_type, nip_check_error_counter"]}
{"id": "C56", "title": "Forward-backward inference computes the smoothing distribution of the unrolled network", "statement": "The posterior that forward-backward inference reports for a variable at time t equals the posterior of that variable in slice t of the network unrolled over the whole series, given all the observations of the series.", "quantifier": "all models with temporal links, all time series of any length, all histories of use before", "why_tests_cant": "Two inductions over time, forwards and backwards, with a division of messages that is right only because of an absolute-continuity argument at zeros.", "anchors": ["src/nip.c: forward_backward_inference, start_timeslice_message_pass, finish_timeslice_message_pass"]}
{"id": "C57", "title": "The log likelihood reported by inference over time", "statement": "Forward inference and forward-backward inference report the sum over time of the logarithm of the probability of the observations of a slice given those of the slices before, and the lowest number if the observations are impossible.", "quantifier": "all models with temporal links, all time series, any function obeying the law of logarithms", "why_tests_cant": "Needs that the constants by which messages are normalised cancel in every slice.", "anchors": ["src/nip.c: forward_inference, forward_backward_inference"]}
{"id": "C58", "title": "Inference over time leaves no trace", "statement": "After any sequence of calls of forward and forward-backward inference with any series, and any other use of the model, a call reports the same as on the freshly read model.", "quantifier": "all networks, all sequences of calls and operations, all series with possible data", "why_tests_cant": "All histories.", "anchors": ["src/nip.c: forward_inference, forward_backward_inference, reset_model, use_priors"]}
{"id": "C59", "title": "The E-step adds the expected counts of the unrolled network", "statement": "For a series whose data are possible, the E-step adds to the count of every variable and every combination of states of the variable and its parents the sum over time of the posterior probability of that combination in the network unrolled over the series, given all its data (variables of the old interface are counted in the first slice only), and reports the log likelihood of the series; for impossible data it returns BAD_LUCK and adds nothing.", "quantifier": "all models with temporal links, all time series of any length, all histories of use before", "why_tests_cant": "Joint posteriors over families need the whole of exact inference in two directions of time.", "anchors": ["src/nip.c: e_step", "src/nipjointree.c: nip_find_family_mapping"]}
{"id": "C60", "title": "Learning is the iteration of expectation and maximisation", "statement": "Every round of learning replaces the parameters by the normalised counts, where the counts are one pseudo count per cell plus the expected counts of all series under the parameters of the round before; the model left behind is the network with the parameters of the last completed M-step.", "quantifier": "all models, all sets of series, all starting parameters, all numbers of rounds", "why_tests_cant": "A refinement over unboundedly many rounds.", "anchors": ["src/nip.c: em_learn, m_step, e_step"]}
{"id": "C61", "title": "Learning that continues starts from the parameters of the model", "statement": "Without random initialisation the first M-step of learning leaves the distribution of the model as it was.", "quantifier": "all models whose tables are normalised", "why_tests_cant": "All models; a wrong start is hidden by later rounds.", "anchors": ["src/nip.c: em_learn, m_step"]}
{"id": "C62", "title": "Learning never makes the data less likely", "statement": "From one round of learning to the next the log likelihood of the data does not decrease.", "quantifier": "all models, all sets of series, all starting parameters", "why_tests_cant": "A statement about the fixed point iteration for all parameters.", "anchors": ["src/nip.c: em_learn"]}
{"id": "C63", "title": "Reading a data file delivers the time series the file contains", "statement": "For every file with a header, read_timeseries gives one series for each group of lines without blank lines between them; the observed variables are the variables of the model named in the header, the hidden ones all others; the value of an observed variable at a time step is the state named in its column of that line, or missing if the field names no state or the line has no such field.", "quantifier": "all models, all files", "why_tests_cant": "All file layouts: short and long lines, repeated columns, columns that are not in the model, blank lines anywhere.", "anchors": ["src/nip.c: read_timeseries", "src/nipparsers.c: nip_analyse_data_file, nip_next_line_tokens"]}
{"id": "C64", "title": "Time series written to a file read back as they were", "statement": "If write_timeseries writes a set of time series of a model, read_timeseries with the same model returns as many series of the same lengths, in which every variable has the same value at every time step (missing values and variables that are not observed stay missing).", "quantifier": "all models whose names can be written in a file, all sets of series", "why_tests_cant": "All sets of series, with different observed variables, missing values and lengths.", "anchors": ["src/nip.c: read_timeseries, write_timeseries"]}
{"id": "C65", "title": "The joint probability of a set of variables is the joint posterior distribution", "statement": "After inference, get_joint_probability for a set of variables of the model returns the joint distribution of these variables given the evidence, however many cliques they are spread over.", "quantifier": "all models, all evidence, all sets of variables", "why_tests_cant": "All trees and all sets of variables; a wrong recombination is still a normalised table.", "anchors": ["src/nipjointree.c: nip_gather_joint_probability", "src/nip.c: get_joint_probability"]}
{"id": "C66", "title": "Generated data follow the distribution of the unrolled network", "statement": "generate_data draws every value from the conditional distribution of that variable in the unrolled network given all values drawn before: state i is chosen exactly when the random number lies in the interval of length P(i | values drawn before) that belongs to i.", "quantifier": "all models, all lengths, all sequences of random numbers", "why_tests_cant": "The distribution of samples over all lengths cannot be observed from finitely many runs.", "anchors": ["src/nip.c: generate_data, lottery"]}
{"id": "C67", "title": "The lexical analyser finds the words of a network file as written", "statement": "For every network file laid out in lines (words, numbers, quoted texts and marks, with any white space between them and comments from % to the end of a line), successive calls of yylex return exactly the keywords, names, numbers, quoted texts and marks written, in order, and then end of file.", "quantifier": "all files of all lengths and layouts with lines shorter than the buffer", "why_tests_cant": "Layouts, comments and names are unbounded; the tests use one fixed file.", "anchors": ["src/nipparsers.c: nip_next_hugin_token", "src/huginnet.y: yylex", "src/nipstring.c: nip_tokenise"]}
{"id": "C68", "title": "A network file in the Hugin language is read as the network it describes", "statement": "For every description of a network (nodes with states, labels, NIP_next and other fields in any order; potentials with or without parents and numbers, grouped by any parentheses; with or without a net block, or inside a class), parsing its words gives the variables, states, time links and tables described: every name refers to the variable declared under it, every table has the numbers written, and the model built is the model of that network. In particular optional fields may be left out.", "quantifier": "all descriptions", "why_tests_cant": "All files of a grammar; a field that is forgotten or taken over from another node shows only in some combinations.", "anchors": ["src/huginnet.y: grammar actions, parsed_vars_to_graph, interface_to_vars", "src/nipvariable.c: nip_new_variable, nip_search_variable_list", "src/nip.c: parse_model"]}
{"id": "C69", "title": "What parse_model returns depends on the file only", "statement": "Reading a file with parse_model gives the same result no matter what other files have been read before in the same process, successfully or not.", "quantifier": "all sequences of files", "why_tests_cant": "Needs all histories of the static variables of parser and lexical analyser.", "anchors": ["src/huginnet.y: static variables", "src/nipparsers.c: nip_next_hugin_token static variables", "src/nip.c: parse_model"]}
{"id": "C70", "title": "write_model computes the conditional tables of the network", "statement": "The table that write_model prints for a variable with parents is the conditional table of that variable which the model was built from, whatever other tables are multiplied into the same clique and whatever evidence was entered.", "quantifier": "all networks of conditional probabilities, all histories", "why_tests_cant": "Depends on which tables share a clique; all networks.", "anchors": ["src/nip.c: write_model", "src/nippotential.c: nip_general_marginalise, nip_normalise_cpd"]}
{"id": "C71", "title": "A model that is written and read again is the same model", "statement": "parse_model applied to the file made by write_model gives a model with the same variables, states, labels, time links and parents, and tables that differ only by the rounding of the numbers to six decimals.", "quantifier": "all models with printable names", "why_tests_cant": "All names, sizes and numbers; rounding effects are invisible in a few examples.", "anchors": ["src/nip.c: write_model, parse_model", "src/huginnet.y", "src/nipparsers.c: nip_next_hugin_token"]}
{"id": "C72", "title": "Questions by name get the answer of the joint distribution written in the file", "statement": "For every network file that makes sense: after the file has been read, the model reset and the priors used, and any evidence entered by names with insert_hard_evidence and insert_soft_evidence about different variables, get_probability of model_variable(name) is the conditional distribution of that variable, computed by summing the product of the numbers written in the file, times the evidence, over all combinations of states.", "quantifier": "all network files, all lists of evidence", "why_tests_cant": "All files, all evidence, all numbers: reading, graph, triangulation, join tree and propagation must fit together.", "anchors": ["src/nip.c: parse_model, model_variable, insert_hard_evidence, insert_soft_evidence", "src/nipjointree.c", "src/huginnet.y"]}
{"id": "C73", "title": "insert_hard_evidence and insert_soft_evidence report unusable arguments and then change nothing", "statement": "insert_hard_evidence and insert_soft_evidence return a non-zero code if the model has no variable of that name, or (hard evidence) the variable has no state of that name, and then the answers to all questions are as before.", "quantifier": "all models after any history, all names", "why_tests_cant": "All names and all states of the model.", "anchors": ["src/nip.c: insert_hard_evidence, insert_soft_evidence, model_variable", "src/nip.h:325-345"]}
{"id": "C74", "title": "insert_ucs_step enters one step of an uncertain series as evidence", "statement": "insert_ucs_step has the effect of entering, for each variable of the uncertain series with the mark asked for, the numbers of the given time step as evidence, and of nothing else; a time step that does not exist is refused and nothing changes.", "quantifier": "all models, all uncertain series, all times and marks", "why_tests_cant": "All sizes and marks; indexes that are confused show only for certain sizes.", "anchors": ["src/nip.c: insert_ucs_step, uncertainseries_length"]}
{"id": "C75", "title": "nipinference writes the smoothed distributions", "statement": "The file made by nipinference has the names of the states of the chosen variable in the first line, and then for each time series and each time step one line with the conditional probabilities of the states given all data of that series, each formatted by %f, and an empty line after each series; write_uncertainseries refuses sets without the variable and writes nothing then.", "quantifier": "all network files, all sets of time series, all variables", "why_tests_cant": "All lengths and numbers of series; index mistakes show only with several variables or series.", "anchors": ["src/nip.c: write_uncertainseries, get_posterior", "util/nipinference.c: main"]}
{"id": "C76", "title": "nipmap writes most probable states", "statement": "For each time series, each time step and each hidden variable the state name written by nipmap is that of a state with the greatest conditional probability given all data of the series, and the first such state.", "quantifier": "all network files, all sets of time series", "why_tests_cant": "All probabilities; ties and zeros.", "anchors": ["util/nipmap.c: main"]}
{"id": "C77", "title": "niplikelihood computes the conditional likelihood of each record", "statement": "For every record of the data, the quotient m2 / m1 of the numbers printed by niplikelihood is the conditional probability of the values of the variables of interest given the values of the others in that record.", "quantifier": "all network files, all data, all choices of variables", "why_tests_cant": "All networks and records; the state of the model is carried from record to record.", "anchors": ["util/niplikelihood.c: main", "src/nip.c: insert_ts_step, model_prob_mass, use_priors"]}
{"id": "C78", "title": "nipjoint is safe and prints the likelihood of the first record", "statement": "For every network file, data file and list of names, nipjoint frees no memory twice, does not use freed memory or null pointers, and m2 / m1 is the probability of the first record.", "quantifier": "all files and all command lines", "why_tests_cant": "Memory errors depend on the arguments; all networks.", "anchors": ["util/nipjoint.c: main"]}
{"id": "C79", "title": "nipconvert writes the unary code of a variable", "statement": "write_unary_timeseries writes a line of state names and for each time step of each series one line with a digit for each state of the first observed variable: 1 for the state observed and 0 for the others, all 0 if nothing was observed; an empty line follows each series.", "quantifier": "all sets of time series", "why_tests_cant": "All sizes and observations, sets in which the series observe different variables.", "anchors": ["util/nipconvert.c: write_unary_timeseries"]}
{"id": "C80", "title": "niptrain does at most the given number of EM iterations in a run", "statement": "In each run (between random initialisations) of niptrain, em_learn does at most MAXI iterations altogether, and fewer only if it converged or failed.", "quantifier": "all models, data, thresholds and limits", "why_tests_cant": "All limits and all courses of the learning curve.", "anchors": ["util/niptrain.c: main", "src/nip.c: em_learn"]}
{"id": "C81", "title": "nipnext prints the distribution at the last time step given the data up to then", "statement": "For each time series nipnext prints the logarithm of the conditional probability of each state of the chosen variable at the last time step, given the data of that series.", "quantifier": "all network files, all sets of time series, all variables", "why_tests_cant": "All lengths and data.", "anchors": ["util/nipnext.c: main", "src/nip.c: get_posterior, forward_inference"]}
{"id": "C82", "title": "nipinference from files to file", "statement": "For every text that is a layout of a sensible network description and every data file, nipinference writes: the line of state names of the chosen node, and for each group of data lines and each line the conditional probabilities of the states, computed from the numbers written in the network file by summing products over all sequences of combinations of states that agree with the names written in the data file, and an empty line after each group.", "quantifier": "all network files (texts), all data files (texts), all nodes", "why_tests_cant": "All pairs of texts; the whole path from characters to characters.", "anchors": ["util/nipinference.c: main", "src/nip.c: parse_model, read_timeseries, forward_backward_inference, write_uncertainseries", "src/huginnet.y", "src/nipparsers.c"]}
{"id": "C83", "title": "nipmap from files to file", "statement": "For every text that is a layout of a sensible network description and every data file, nipmap writes the names of the nodes without a column in the data, and for each line of data the names of states of these nodes with the greatest conditional probability given the whole group of lines (the first of these states), computed from the numbers written in the network file.", "quantifier": "all network files (texts), all data files (texts)", "why_tests_cant": "All pairs of texts; the whole path from characters to characters.", "anchors": ["util/nipmap.c: main", "src/nip.c: parse_model, read_timeseries, forward_backward_inference"]}
{"id": "C84", "title": "nipnext from files to text", "statement": "For every text that is a layout of a sensible network description and every data file, nipnext prints the names of the states of the chosen node and for each group of data lines the logarithms of the conditional probabilities of the states in the last line's time step, given the group, computed from the numbers written in the network file.", "quantifier": "all network files (texts), all data files (texts), all nodes", "why_tests_cant": "All pairs of texts; the whole path from characters to characters.", "anchors": ["util/nipnext.c: main", "src/nip.c: parse_model, read_timeseries, forward_inference"]}
{"id": "C85", "title": "Only network files are accepted", "statement": "For every text, if parse_model returns a model (in a process that has not parsed before), then the lexemes of the text are those of a network description: an optional net block or a class around it, nodes with fields, potentials with parents and grouped numbers, and nothing before, between or after them; the variables of the model are the nodes of this description in their order, with their names, labels and states cut to 40 characters.", "quantifier": "all texts", "why_tests_cant": "The set of texts that are not network files is infinite; a test can only show that some of them are refused.", "anchors": ["src/huginnet.y: all rules", "src/nip.c: parse_model"]}
{"id": "C86", "title": "Accepted network files make sense", "statement": "For every text, if parse_model returns a model (in a process that has not parsed before), the description in the text makes sense: there are nodes, their names are different, no field is given twice, every node has states with different names, the names in potentials are of nodes and different from each other, there are enough numbers, none is negative, no node has two potentials, parents do not go in a circle, successors are nodes with the same number of states.", "quantifier": "all texts", "why_tests_cant": "The texts that describe nonsense are infinitely many and of many kinds.", "anchors": ["src/huginnet.y: nodeDeclaration, potentialDeclaration, interface_to_vars", "src/nip.c: parse_model"]}
{"id": "C87", "title": "Separator lists and the freeing of cliques", "statement": "For every history of creating cliques, creating separators between different cliques, confirming each of them at most once while both its cliques are there, and freeing cliques or unconfirmed separators: no freed clique, separator or list cell is used or freed again, the doubly linked list of every clique holds exactly the confirmed separators that touch it and whose other clique has not been freed, most recent first, and after all cliques have been freed no list cell and no confirmed separator is left.", "quantifier": "all histories of calls", "why_tests_cant": "Unbounded number of cliques and separators, all orders of creation and freeing.", "anchors": ["src/nipjointree.c: nip_new_clique, nip_new_sepset, nip_confirm_sepset, nip_remove_sepset, nip_free_sepset, nip_free_clique", "src/nip.c: free_model"]}
{"id": "C88", "title": "Candidate separators are kept or freed", "statement": "For every set of cliques, every candidate separator made by nip_create_sepsets is either confirmed (and then part of the tree until its cliques are freed) or freed before the function returns, none of them twice, and after free_model has freed all cliques no clique, separator or list cell is left.", "quantifier": "all sets of cliques (any number, any variables)", "why_tests_cant": "A lost separator changes no result; it shows only in the memory used, and depends on the order in which candidates leave the heap.", "anchors": ["src/nipgraph.c: nip_build_sepset_heap, nip_create_sepsets", "src/nipjointree.c: nip_new_sepset, nip_confirm_sepset, nip_free_sepset, nip_free_clique", "src/nip.c: free_model"]}
{"id": "C89", "title": "nipsample from file to file", "statement": "nipsample, given a network file that makes sense, a seed, a number of series and a number of time steps, writes a data file with that many series of that many lines, with a column for every node (parents before children) and in each place the name of a state of the node; the name is that of the state in whose interval the random number lies, the intervals having the lengths of the conditional probabilities given everything drawn before in the series, as written in the network file; so that with independent uniform random numbers each file is written with the probability that the network file gives to its lines. Unusable arguments give the exit code -1 and no file.", "quantifier": "all network files that make sense, all layouts, all numbers of series and time steps, all sequences of random numbers", "why_tests_cant": "A test sees a few samples; a wrong order, a dependence between series or a slightly wrong interval shows only in frequencies.", "anchors": ["util/nipsample.c: main", "src/nip.c: parse_model, generate_data, lottery, write_timeseries"]}
{"id": "C90", "title": "niptrain from files to file", "statement": "niptrain, given a network file and a data file that make sense and usable arguments, never has undefined behaviour and never stops with an error; if it stops, the file that it has written, when a new process reads it, is a network with the same nodes, texts, numbers of states, links between time steps and parents, whose tables differ only by rounding from those that the last call of em_learn has learnt: a network of the sequence of expectation and maximisation that starts with random numbers or with the network before, after at least three rounds, in which all lines of the data file are possible and have a mean log likelihood per line that is not less than the number demanded; the learning curve that it prints consists of the mean log likelihoods of the rounds of the calls of the last run, rounded to multiples of the threshold, the last one being that of the network written. Unusable arguments, a network file that is not accepted, a data file without lines or without a column for a node give the exit code -1 and no file.", "quantifier": "all network files and data files that make sense, all layouts, all arguments, all sequences of random numbers, any number of runs and batches", "why_tests_cant": "Learning is repeated until the likelihood is good enough, in batches between which the model is written, with a stopping criterion that keeps its value from call to call; a test takes a few of these paths with a few data files.", "anchors": ["util/niptrain.c: main", "src/nip.c: parse_model, em_learn, write_model", "src/nip.c: read_timeseries"]}
{"id": "C91", "title": "niplikelihood from files to text", "statement": "niplikelihood, given a network file and a data file that make sense and at least one name, prints after its title, for each line of data, three numbers, and an empty line after each series: the third number is the logarithm of the conditional probability of what the line says about the nodes with these names, given what it says about the other nodes, in the joint distribution described by the network file (or '-inf' if this probability is zero), and the quotient of the second and the first number is this probability, if what the line says about the other nodes is possible; the exit code is 0. A network file that is not accepted or a data file without lines gives the exit code -1 and nothing but the title.", "quantifier": "all network files and data files that make sense, all layouts, all lists of names, all lines of data", "why_tests_cant": "The evidence is entered in two parts into a model that is reset after each line; a trace left by a line shows only for later lines of certain files.", "anchors": ["util/niplikelihood.c: main", "src/nip.c: parse_model, read_timeseries, insert_ts_step, reset_model, use_priors"]}
{"id": "C92", "title": "nipjoint from files to text", "statement": "nipjoint, given a network file and a data file that make sense, never has undefined behaviour, and prints after its title the names of the nodes asked for, a line for each combination of their states (the state of the first node changes fastest) with the conditional probability of the combination given the first line of data, if that line is possible, then two numbers whose quotient is the probability of the first line, and the logarithm of the quotient; the nodes asked for are those named by the arguments, or else those without a column, or else the one of the first column. A name that is no node, a network file that is not accepted or a data file without lines gives the exit code -1.", "quantifier": "all network files and data files that make sense, all layouts, all lists of names", "why_tests_cant": "Whether the result is right, or defined at all, depends on the cliques found for the network and on which arrays are freed; a test tries a few networks.", "anchors": ["util/nipjoint.c: main", "src/nip.c: get_joint_probability, parse_model, read_timeseries", "src/nippotential.c: nip_fprintf_potential"]}
{"id": "C93", "title": "nipconvert from files to file", "statement": "nipconvert, given a network file and a data file that make sense, the input format 'univariate' and the output format 'unary' (in small or capital letters), writes a data file whose header has the names of the states of the node of the first column that belongs to a node, and for each line of data a line with the digit 1 for the state that the line names for this node and the digit 0 for all others, series separated as before; the exit code is 0. Other formats, a network file that is not accepted, a data file without lines or without a column for a node give the exit code -1 and no file.", "quantifier": "all network files and data files that make sense, all layouts, all spellings of the formats", "why_tests_cant": "The function assumes that the first variable of the union of observed variables is the first one of each series; tests use files with one column.", "anchors": ["util/nipconvert.c: main, write_unary_timeseries", "src/nip.c: parse_model, read_timeseries"]}
{"id": "C94", "title": "nipbenchmark from files to file and text", "statement": "nipbenchmark, given a network file and a data file with at least two series that make sense, usable numbers, and the name of a node, does for each series the following: it learns from all the other series, and from nothing else, starting with random numbers again and again (at most 1024 rounds each time), until there is no bad luck and the mean log likelihood is high enough; with the network learned it computes for each line of the series left out the conditional probabilities of the states of the node, given what all lines of that series say about the other nodes. What the series left out says about the node itself counts neither in learning nor in inference. These probabilities are written to the output file, in the order of the series, after a header with the names of the states; the mean over the series of the log likelihood per time step of what was left out (without the node) is printed; the exit code is 0. With fewer than two series, numbers that cannot be used, an unknown node or a network file that is not accepted the exit code is -1 and no file is written; so it is without an output file.", "quantifier": "all network files and data files that make sense, all layouts, all nodes, all random numbers, all thresholds, any number of calls of the learning function", "why_tests_cant": "One model is learned, used and learned again for each series; whether anything of the series left out, or of an earlier network, gets into the results cannot be seen from the results of a random algorithm.", "anchors": ["util/nipbenchmark.c: main", "src/nip.c: em_learn, forward_backward_inference, write_uncertainseries, parse_model, read_timeseries"]}
{"id": "C95", "title": "The programs for network files with nodes in any order", "statement": "Whatever the order in which a network file declares its nodes: nipinference, nipmap, nipnext, niplikelihood and nipjoint, and questions by name, compute exactly with the distribution in which the numbers of each potential are taken in proportion over the states of that node of its family that is declared first (the child, if it is declared before its parents). nipconvert and nipbenchmark do what they should in any order.", "quantifier": "all network files that make sense, with nodes in any order, and all data files and layouts as in C82", "why_tests_cant": "The wrong proportions (C47) are visible only with tables whose numbers do not add up to one in the other direction as well; a test shows one wrong number, not what is computed instead for every file.", "anchors": ["src/huginnet.y: potentialDeclaration", "src/nippotential.c: nip_create_potential, nip_normalise_cpd", "util/nipinference.c", "util/nipmap.c", "util/nipnext.c", "util/niplikelihood.c", "util/nipjoint.c", "util/nipconvert.c", "util/nipbenchmark.c"]}
{"id": "C96", "title": "What is computed for data that cannot happen", "statement": "If the data of a series have probability zero, forward_backward_inference, forward_inference and the programs nipinference, nipmap and nipnext neither fail nor divide by zero. With links over time every number of the series is zero (in forward_inference: from the first time step on up to which the data are impossible; nipmap then names the first state of every variable; nipnext prints the logarithm of zero). Without links over time each time step is answered from its own data alone: zeros exactly where the data of that time step are impossible, the conditional probabilities given them elsewhere. Together with the possible series this says what is written for every data file.", "quantifier": "all network files that make sense, in any order of nodes and any layout, all data files and all groups of lines in them, possible or not", "why_tests_cant": "Zero-probability data exercise 0/0 in every message between cliques and time steps; a test shows one pattern of zeros, not that no combination of files and data leaves an undefined or a left-over number in some line.", "anchors": ["src/nip.c: forward_inference, forward_backward_inference, start_timeslice_message_pass, finish_timeslice_message_pass", "src/nippotential.c: nip_normalise_array, nip_update_potential", "util/nipinference.c", "util/nipmap.c", "util/nipnext.c"]}
{"id": "C97", "title": "The memory of variables", "statement": "For every history of calls of nip_new_variable, nip_copy_variable, nip_set_parents, nip_set_prior, nip_find_family_mapping, the default prior of parse_model and nip_free_variable in which each variable is used only while it exists, nothing is used before it is initialised or after it is freed, nothing is freed twice, and the blocks of memory in use are exactly those of the variables that exist: none when all are freed. This also holds if an allocation fails.", "quantifier": "all histories of calls, all combinations of texts that are given or NULL, all numbers of states and parents, all patterns of failing allocations", "why_tests_cant": "Uninitialised pointers and freed blocks often look right in a test run; failing allocations are hardly ever tried, and the histories are unbounded.", "anchors": ["src/nipvariable.c: nip_set_variable_text, nip_new_variable, nip_copy_variable, nip_free_variable, nip_set_parents, nip_set_prior", "src/nipjointree.c: nip_find_family_mapping", "src/nip.c: parse_model (default prior), free_model"]}
{"id": "C98", "title": "The data scripts select.awk and hide_values.awk", "statement": "select.awk prints for every line of a data file the field of the variable asked for (the column with its name in the first line that is not empty) and keeps the empty lines; if no column has the name it prints no data and ends with exit code 1. hide_values.awk prints the data file without the columns of negative probability, with the prefix hidden_ before the names of those of probability zero, and with null in place of exactly those values of the other columns whose random number is not less than the probability; the fields are separated by single commas and the empty lines are kept.", "quantifier": "all data files, all names, all tables of probabilities, all random numbers", "why_tests_cant": "The rows depend on the combination of columns kept and dropped, on lines of different lengths and on names that look like numbers; a test shows some of them.", "anchors": ["util/select.awk", "util/hide_values.awk"]}
{"id": "C99", "title": "mlss returns the most likely state sequence", "statement": "mlss returns a time series about the given variables, with all other variables hidden, of the length of the given one, whose data are a most likely sequence of states given the observations.", "quantifier": "all models, all series, all sets of variables of the model", "why_tests_cant": "There are exponentially many sequences; a test compares a few.", "anchors": ["src/nip.c: mlss", "src/nip.h: mlss"]}
{"id": "C100", "title": "Rounding errors never make a probability negative, larger than one, or not a number", "statement": "The numbers of the program are machine numbers: the result of every addition, subtraction, multiplication and division is rounded, and dividing by zero gives something that is not a number. Whatever the rounding is, as long as it never turns a smaller number into a larger one than it makes of a larger number, leaves 0 and 1 as they are and leaves rounded numbers as they are, and no number is too large for the machine: for every network file with non-negative rounded tables and every history of evidence (non-negative rounded numbers), observations, priors, inference, questions and resets, the library does not divide by zero, no table ever holds a negative number or something that is not a number, and every probability reported for a state lies between 0 and 1, ends included. Inference over time series (filtering and smoothing) and sampling have the same guarantee. What rounding does break is stated too: the reported probabilities of the states of a variable need not sum to one, and they may all be zero although the evidence is possible.", "quantifier": "all rounding functions with the four laws, all network files, all histories and all time series", "why_tests_cant": "A test runs one rounding mode on one machine with a few networks; a negative table entry or a not-a-number needs particular magnitudes, so the absence of such numbers over all histories cannot be sampled.", "anchors": ["src/nippotential.c:267", "src/nippotential.c:361", "src/nippotential.c:417", "src/nippotential.c:478", "src/nipjointree.c:645", "src/nipjointree.c:828", "src/nip.c:1130", "src/nip.c:1342", "src/nip.c:2283"]}
{"id": "C101", "title": "Sizes and indices of potentials fit the integers of the machine, or creation is undefined", "statement": "Sizes, dimensions and indices of potentials are C ints. Creating a potential multiplies the numbers of states one after another without checking: the creation computes a value that does not fit an int, which is undefined, exactly when the product of some leading part of the numbers of states exceeds the largest int. It is not refused. When creation did not overflow, all later integer arithmetic on the potential (turning indices into addresses, addresses into indices, walking through partial indices during marginalisation, multiplication of evidence and initialisation) stays within the ints for every legal argument, and the functions compute what they compute with unbounded integers.", "quantifier": "all lists of numbers of states, all tables, all legal indices, mappings and evidence", "why_tests_cant": "The overflow needs tables with billions of entries, which no test allocates; that indices of smaller tables never overflow is a statement about all of them.", "anchors": ["src/nippotential.c:37", "src/nippotential.c:58", "src/nippotential.c:84", "src/nippotential.c:251", "src/nippotential.c:267", "src/nippotential.c:361"]}
{"id": "C102", "title": "Memory of potentials and their properties", "statement": "Potentials are created, copied, given properties (pairs of strings that the potential takes over), asked for properties and freed, in any order and with any contents, NULL included. As long as no allocation fails nothing is read or freed that is not allocated, exactly the memory that the existing potentials need is in use (none when all are freed), and a question is answered with the value that was first written under the key. If allocations fail while a property is written, the property is there or nothing has changed. If one fails while a potential is created: for the structure or the temporary indices nothing is lost; for the list the potential exists but refuses properties; but for the cardinalities a block is lost, and for the numbers the half-built potential is freed through a pointer that was never set.", "quantifier": "all sequences of calls, all contents, all places at which an allocation can fail", "why_tests_cant": "Tests do not make allocations fail and do not look at what is still allocated.", "anchors": ["src/nippotential.c:84", "src/nippotential.c:153", "src/nippotential.c:162", "src/nippotential.c:174", "src/nippotential.c:200", "src/niplists.c:207", "src/niplists.c:565", "src/niplists.c:643"]}
{"id": "C103", "title": "Costs computed during triangulation fit the integers of the machine, or building the join tree is undefined", "statement": "To choose the next variable to eliminate, the library multiplies the numbers of states of the variable and all its neighbours in an int, for every variable, without checking. Building the heap of candidates is undefined exactly when for some variable the product over a leading part of this list (the variable first, then its neighbours in the order of the graph) exceeds the largest int. This has nothing to do with the size of the tables in the network: a class variable with features that have it as their only parent, all of two states (a naive Bayes network), whose tables have at most four cells, is undefined with ints of 32 bits exactly from 30 features on. If the product of the numbers of states of all variables is not larger than the largest int, nothing overflows during the whole triangulation and the cliques are those computed with unbounded integers.", "quantifier": "all graphs, all numbers of states, all numbers of features", "why_tests_cant": "The overflow is silent on most machines and only changes the elimination order; tests use small networks.", "anchors": ["src/nipgraph.c:616", "src/nipgraph.c:638", "src/nipgraph.c:670", "src/nipgraph.c:725", "src/nipheap.c:93", "src/nipheap.c:164"]}
{"id": "C104", "title": "The inference code stays within its arrays whatever the numbers are", "statement": "For every network file whose nodes, parents and tables fit together (the numbers in the tables may be anything), and every history of evidence, observations, priors, inference, questions and resets with arrays of the right lengths: no function reads or writes outside an array, dereferences a null pointer or divides an integer by zero, no matter how the arithmetic of the numbers behaves – with rounding, infinities, results that are not numbers, negative numbers, or operations that return anything at all. Every question is answered with one number per state. The same holds for filtering and smoothing of every time series (the log likelihood not asked for) and for sampling, where every variable gets one of its states.", "quantifier": "all arithmetic operations, all network files, all histories, all time series, all random numbers", "why_tests_cant": "Tests run with one arithmetic and few numbers; here the operations themselves are quantified over.", "anchors": ["src/nippotential.c:267", "src/nippotential.c:419", "src/nipjointree.c:341", "src/nip.c:1100", "src/nip.c:1354"]}
{"id": "C105", "title": "Rounding errors stay bounded and vanish with the precision", "statement": "Let every rounding change a number that is not negative by at most a factor 1 + e, up or down (so that no number is too small or too large for the machine). Then for every network file, also one whose tables were rounded when they were read, and every history of evidence, observations, priors, inference, questions and resets there is a number N, which depends neither on e nor on the way of rounding, such that every probability reported by the machine differs from the exact conditional probability by at most a factor (1 + e)^N, up or down; in particular a state is reported with probability zero exactly if its exact probability is zero. So the answers come arbitrarily near to the exact ones if the rounding is fine enough. The same holds for the answers of filtering and smoothing of every time series, possible or not.", "quantifier": "all network files with links that make sense, all histories, all time series, all ways of rounding with bounded relative errors, all bounds e", "why_tests_cant": "a test compares some answers with some tolerance for one precision; it cannot show that no cancellation or amplification is possible for other networks, evidence, lengths of series or precisions", "anchors": ["src/nippotential.c: nip_general_marginalise, nip_update_potential, nip_normalise_array, nip_update_evidence, nip_init_potential", "src/nipjointree.c: nip_message_pass, nip_collect_evidence, nip_distribute_evidence, nip_enter_evidence, nip_global_retraction", "src/nip.c: get_probability, forward_inference, forward_backward_inference, use_priors, reset_model"]}
{"id": "C106", "title": "Memory of time series and of the results of inference", "statement": "Time series are read from files, inference (filtering and smoothing) and the function for the most likely sequence are run on them, and series, results and the array of series are freed, in any order and with any sizes. As long as no allocation fails nothing is read or freed that is not allocated, and exactly the memory that the existing series and results need is in use (none when all are freed), also when a passing of messages reports an error. Wherever allocations fail, filtering and the most likely sequence either give the complete result or NULL with memory as before; so does smoothing unless the allocation of the array of messages fails, which is not checked: then NULL is written through. If an allocation fails while a file is read, the answer is 0 but all series read before are lost; if it is the one for the array of hidden variables, the array of observed variables is lost as well; if it is one for splitting a line, freed memory or NULL is used. Writing results of a variable that is not in them loses a block.", "quantifier": "all sequences of calls, all sizes, all places at which an allocation can fail", "why_tests_cant": "Tests do not make allocations fail and do not look at what is still allocated.", "anchors": ["src/nip.c:519", "src/nip.c:803", "src/nip.c:826", "src/nip.c:907", "src/nip.c:1130", "src/nip.c:1341", "src/nip.c:1639", "src/nipparsers.c:443"]}
{"id": "C107", "title": "The probability mass and the log likelihood on a machine that rounds", "statement": "The probability mass is the sum of all clique tables minus the sum of all separator tables, so numbers of the same size are subtracted. Let every rounding change a number by at most a factor 1 + e, up or down, and a number of any sign by at most e times its size. Then for every network file and every history that ends with inference (and questions) there is a number N, which depends neither on e nor on the way of rounding, such that the mass reported differs from the exact total weight of all assignments by at most ((1 + e)^N - 1) times this weight. So it is zero if the evidence is impossible, and if the rounding is fine enough it is positive otherwise: the assertion in filtering and smoothing that the mass is not negative (which fails on some machines, C100) cannot fail, and both give with the log likelihood asked for the answers of C105. The number reported as log likelihood is what the machine computes from logarithms of masses, and the quotients of these masses come arbitrarily near to the exact conditional probabilities of the observations of each time step; it is the lowest number if the observations are impossible and there are links between time steps. In real numbers, with a logarithm whose relative error is at most e, the log likelihood of possible observations differs from the sum of the logarithms of the exact conditional probabilities by at most a constant times e.", "quantifier": "all network files with links that make sense, all histories, all time series, all ways of rounding with bounded relative errors, any functions for the logarithm", "why_tests_cant": "cancellation in a sum with both signs depends on the network, the evidence and the rounding; a test cannot show that the relative error is bounded for all of them or that the assertion never fails", "anchors": ["src/nipjointree.c:1123", "src/nipjointree.c:1132", "src/nipjointree.c:1141", "src/nip.c:1256", "src/nip.c:1468"]}
{"id": "C108", "title": "Memory of data files", "statement": "A data file is opened, its contents are analysed (names of the columns, names of the states of each column, numbers of lines), and it is closed, while anything else is in memory. As long as no allocation fails nothing is read, written or freed that is not allocated, whatever the text of the file; after the analysis exactly the blocks are in use that the file needs: the file itself, its name and the array of line counts, for a file with any text and a header also an array and one block for each column name, the array of state counts, the array of state names and for each column with values an array and one block for each distinct value that is not missing; all temporary lists are gone, and the names found in memory are those of C45. After closing the memory is as it was before opening. If an allocation fails in opening, or the allocation of the line counts or of a column name fails in the analysis, an error is reported and closing gives everything back. Other failures are not handled: a state list that could not be created is read through NULL at the end; an array of state names that could not be created makes closing read NULL; a failing allocation for a line of data loses all lists; a failing allocation of a list entry loses a state name without any error. The caller (reading time series) does not close the file when the analysis fails, which loses all its memory.", "quantifier": "all texts, separators and names of files, all contents of the memory, all places at which an allocation can fail where failure is handled", "why_tests_cant": "Tests do not make allocations fail and do not look at what is still allocated; the number of blocks depends on the distinct values of all columns of an arbitrary file.", "anchors": ["src/nipparsers.c:44", "src/nipparsers.c:97", "src/nipparsers.c:294", "src/nipparsers.c:340", "src/nipparsers.c:403", "src/nipparsers.c:418", "src/niplists.c:90", "src/niplists.c:299", "src/niplists.c:403", "src/niplists.c:491", "src/niplists.c:538", "src/niplists.c:622", "src/nip.c:534"]}
{"id": "C109", "title": "Memory of graphs", "statement": "Graphs are created, copied, extended by nodes and edges, searched for nodes, moralised, extended by interface edges, made undirected and freed, in any order and with any number of graphs, while any of the allocations may fail (the program does not use a graph it did not get). Then nothing undefined happens; a graph that was got holds exactly the nodes and edges it should; it uses three blocks of memory, and a fourth for its table of positions if there is one; searching a node gives its position also when there is no memory for that table; when all graphs have been freed no memory is in use. In nip_graph_to_cliques the copies made before the triangulation are all freed if there is memory for them; if there is not, NULL is used as a graph.", "quantifier": "all histories of calls, all graphs, all sets of failing allocations", "why_tests_cant": "Tests see a few graphs with all allocations succeeding; which allocations fail, and what was called before, cannot be enumerated.", "anchors": ["src/nipgraph.c:70", "src/nipgraph.c:102", "src/nipgraph.c:124", "src/nipgraph.c:147", "src/nipgraph.c:230", "src/nipgraph.c:258", "src/nipgraph.c:278", "src/nipgraph.c:300", "src/nipgraph.c:325", "src/nipgraph.c:354", "src/nipgraph.c:518"]}
{"id": "C110", "title": "Memory of the queue of candidates", "statement": "A queue of candidates is created, and candidates are inserted, replaced, re-ordered and taken out in any order, while there are never more of them than the queue was created for and while any of the allocations may fail. Then nothing undefined happens; the queue holds what it should (a candidate for which there was no memory is reported and missing, everything else is as without failures, except that a replaced candidate is not moved if there was no memory to note it); it uses three blocks of memory, one for each candidate and one for each noted replacement; nothing else in memory changes; and freeing the queue gives the memory from before. Inserting into a full queue loses a block if the queue cannot grow, and writes outside its memory if it can.", "quantifier": "all sizes, all histories of calls, all cost functions, all memories, all sets of failing allocations", "why_tests_cant": "Which allocations fail, and the order of the calls before, cannot be enumerated; a replacement that was not noted shows only as a wrong order much later.", "anchors": ["src/nipheap.c:42", "src/nipheap.c:82", "src/nipheap.c:154", "src/nipheap.c:173", "src/nipheap.c:197", "src/nipheap.c:230", "src/nipheap.c:272", "src/niplists.c:62", "src/niplists.c:141", "src/niplists.c:451"]}
{"id": "C111", "title": "Memory of new cliques and separators", "statement": "Whichever allocations fail, in any memory: creating a clique gives a clique with its variables in order and two tables of the right shape, using one block for the structure, one for the variables and those of its two tables, or NULL with the memory from before except for the blocks that the creation of tables loses, or is undefined exactly if the numbers of a table get no memory. Creating a separator does the same with the common variables of its two cliques, except that it is undefined also if there is no memory for the numbers of states. Freeing what was created gives the memory from before. Confirming a separator puts it first in the lists of both cliques, or reports that memory is missing, and then loses a block if only one of its two allocations failed.", "quantifier": "all lists of distinct variables, all numbers of states, all pairs of cliques, all memories, all sets of failing allocations", "why_tests_cant": "Every one of up to fifteen allocations may fail, alone or with others, and using memory that was never set shows only by chance.", "anchors": ["src/nipjointree.c:75", "src/nipjointree.c:176", "src/nipjointree.c:210", "src/nipjointree.c:264", "src/nipjointree.c:327", "src/nippotential.c:84", "src/nippotential.c:200", "src/nipvariable.c:506"]}
{"id": "C112", "title": "Inference when memory runs out", "statement": "For every network read from a file and every history of calls, whichever allocations fail: making the model consistent asks for memory exactly four times for every separator that has variables, and never for a separator without. If all of these requests are granted, the model is exactly the one obtained with unlimited memory and all of the memory is given back. If any one of them is refused, the missing array is read through a null pointer, whichever request it is: the result of the mapping function is not checked, although that function reports the lack of memory. Asking for the probability of a variable asks for one array, and one more only if the clique of the family is not known yet; if one is refused the answer is NULL, nothing is changed and nothing is lost; otherwise the answer is the one with unlimited memory and exactly the array of the answer stays allocated.", "quantifier": "all valid network files, all histories of calls, all evidence, all sets of failing allocations", "why_tests_cant": "Any of the requests may be refused, in any message of either pass, and a mapping is asked for anew in every message.", "anchors": ["src/nipjointree.c:549", "src/nipjointree.c:599", "src/nipjointree.c:645", "src/nipjointree.c:936", "src/nippotential.c:72", "src/nipvariable.c:560", "src/nip.c:1618", "src/nip.c:2283"]}
{"id": "C113", "title": "Histories of calls when memory runs out", "statement": "Take a network file in which every variable has a potential, and any history of calls on the model read from it (evidence, observations, forgetting everything, priors, inference, questions), whichever allocations fail. The requests of each call are the same in every run: one for an observation of a state, one for a question about a variable, four for every separator with variables for inference, none for all other calls. The run is undefined exactly if some inference has a request refused. Otherwise the model at the end is exactly the one obtained with unlimited memory by the history without the calls that had a request refused: an observation without memory reports it and changes nothing, a question without memory is answered by NULL and changes nothing. In use are the blocks from before and one for every answer.", "quantifier": "all valid network files with a potential for every variable, all histories of calls of any length, all sets of failing allocations", "why_tests_cant": "The number of combinations of calls and failing allocations grows without bound, and one needs to know what the model would have been without the failing calls.", "anchors": ["src/nip.c:60", "src/nip.c:87", "src/nip.c:1618", "src/nip.c:2283", "src/nipjointree.c:760", "src/nipjointree.c:801", "src/nipjointree.c:828", "src/nipjointree.c:873", "src/nipjointree.c:936", "src/huginnet.y:1128"]}
{"id": "C114", "title": "Entering a time step or a named observation when memory runs out", "statement": "insert_ts_step asks for memory once for every value of the step that is not missing and whose variable has the mark asked for. Whichever of these requests are refused, it returns success, nothing stays allocated, and the model is the one obtained by entering, with unlimited memory, only the values whose requests were granted: the others are lost without a report. insert_hard_evidence asks once for the observation if the state is known, then four times for every separator with variables. It is undefined exactly if one of the latter is refused; otherwise it returns ENOMEM if the first is refused, the model being the one after inference without the observation, and 0 with the model of unlimited memory if not.", "quantifier": "all valid network files with a potential for every variable, all histories of calls before, all well-formed series, all steps and marks, all known variables and all state names, all sets of failing allocations", "why_tests_cant": "All subsets of lost values of all rows; and failing allocations cannot be provoked by tests of the library.", "anchors": ["src/nip.c:978", "src/nip.c:1009", "src/nipjointree.c:789", "src/nipjointree.c:801"]}
{"id": "C115", "title": "Forward inference when memory runs out", "statement": "forward_inference (likelihood not asked for), once its arrays are allocated, asks in each time step once for the message from the step before (if there are links and it is not the first step), once for every marked value that is present, four times for every separator with variables, and once for the message to the next step (if there are links). If a request for a message or of inference is refused, the behaviour is undefined; otherwise it returns exactly the results it would return with unlimited memory for the series in which the values whose requests were refused are missing, nothing more stays allocated, and no error is reported. So the answers are the conditional probabilities given only the values that were kept.", "quantifier": "all valid network files with sensible temporal links and a potential for every variable, all histories of calls before, all well-formed series, all marks, all variables asked for, all sets of failing allocations", "why_tests_cant": "All subsets of failing allocations over series of any length; failing allocations cannot be provoked by tests of the library.", "anchors": ["src/nip.c:1058", "src/nip.c:1096", "src/nip.c:1130", "src/nip.c:1009"]}
{"id": "C116", "title": "Forward inference with the likelihood when memory runs out", "statement": "forward_inference with the log likelihood asked for, once its arrays are allocated, makes in each time step the requests of C115 and, between the message from the step before and the values, four more for every separator with variables (the inference for the reference mass). If a request for a message or of inference is refused, the behaviour is undefined; otherwise results, likelihood and model are exactly those of unlimited memory for the series in which the values whose requests were refused are missing, nothing more stays allocated, and no error is reported. So the likelihood reported is the one of the values that were kept, not of the series.", "quantifier": "all valid network files with sensible temporal links and a potential for every variable, all histories of calls before, all well-formed series, all marks, all variables asked for, all functions in place of the logarithm, all sets of failing allocations", "why_tests_cant": "All subsets of failing allocations over series of any length; failing allocations cannot be provoked by tests of the library.", "anchors": ["src/nip.c:1130", "src/nip.c:1256", "src/nip.c:1009"]}
{"id": "C117", "title": "Forward-backward inference when memory runs out", "statement": "forward_backward_inference (likelihood not asked for), once its arrays are allocated, enters every value twice, once in each phase, and each time with a request of its own. If a request for a message or of inference is refused in either phase, the behaviour is undefined; otherwise it returns what it would return with unlimited memory if the forward phase were given the series without the values whose requests are refused in that phase and the backward phase the series without the values whose requests are refused there; nothing more stays allocated, and no error is reported. If the same values are lost in both phases, the answers are the conditional probabilities given the values kept.", "quantifier": "all valid network files with sensible temporal links and a potential for every variable, all histories of calls before, all well-formed series, all marks, all variables asked for, all sets of failing allocations", "why_tests_cant": "All subsets of failing allocations over series of any length; failing allocations cannot be provoked by tests of the library.", "anchors": ["src/nip.c:1342", "src/nip.c:1456", "src/nip.c:1518", "src/nip.c:1009"]}
