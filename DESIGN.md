# Design of the formal model of NIP

NIP is a C library for dynamic Bayesian networks (`/repo`).  This directory holds a Lean 4 model of its
core and machine-checked proofs of the properties listed in `properties.jsonl`.

## Trusted base

* Lean 4.33.0's kernel and Mathlib's definitions (only as far as they appear in statements: `List`, `Finset`,
  sums and products, ordered fields, `Function.update`).
* The reading of the C code: every model definition cites the file and lines it models.  The code is not run.
* No axioms are added.  Each property theorem depends at most on `propext`, `Classical.choice`, `Quot.sound`
  (table in the section "Axioms").
* Modelling assumptions, common to all modules:
  * **Numbers.** The functions of potentials, join trees, inference, time series and sampling are defined for any type with 0, 1, `+`, `-`, `*`, `/`
    and a linear order.  All properties but C100 are stated for an arbitrary linearly ordered field (`ℚ`, `ℝ`), i.e. without rounding, overflow,
    NaN and infinities.  C100 is stated for machine numbers: rounded results and NaN, but no overflow.  `int` used for sizes and indices is modelled by `Nat`/`Int` without wrap-around.
  * **Allocation** always succeeds, so every `ENOMEM` branch is left out, except where the property is about
    the amount of memory requested (C15) or about failing allocations (C97, C102, C106, C108, C109, C110, C111, C112, C113, C114, C115, C116, C117).
  * **Memory.** Arrays are lists.  Every read or write whose index is not syntactically bounded by the array is
    a checked operation whose failure is the distinct outcome `Res.ub` (undefined behaviour).  A theorem that a
    call returns `Res.ok _` therefore includes memory safety of the modelled accesses.
  * **Errors** returned by the C functions are values: such functions return `Res.ok (code, new state)`.  Message
    printing is not modelled.
  * **Scratch buffers** (`temp_index`) are local values in the model.
  * **Pointers.** Where identity of objects matters (cliques, separators, variables, list cells, nodes) objects
    live in a store and are referred to by number.

## What is modelled, and what is not

Modelled, function by function (module in parentheses):

* `nippotential.c` (Potential), `nipheap.c` (Heap), `nipvariable.c`: set operations, sorting, identity, likelihoods, state names (Variable, Series),
  `niplists.c` (Lists), `niperrorhandler.c` (Errors), `nipstring.c` (Tokens).
* `nipgraph.c` (Graph, Triangulate, Sepsets), `nipjointree.c` (JoinTree; the joint-probability gatherer in Joint).
* `nipparsers.c`: data files (DataFile), lexical analysis of network files (HuginLex).
* `huginnet.y`: tables (NetTable), grammar and actions (HuginParse), construction of graph and join tree (Build).
* `nip.c`: reading and writing of time series (Series), evidence, priors, reset, queries (JoinTree), `parse_model` and inference over time (Dynamic),
  `get_joint_probability` (Joint), random numbers and sampling order (Sampling), `generate_data` (Generate), learning (Learn, EmLearn, EmLoop),
  `write_model` (WriteModel), evidence by names, uncertain series (Named), `mlss` (Mlss).
* the memory of `nipvariable.c` (VariableMemory), of potentials and their properties (PotentialMemory), of time series and results (SeriesMemory), of data files (DataMemory), of graphs (GraphMemory),
  of the queue of candidates (HeapMemory), of new cliques and separators (CliqueMemory), inference without memory (InferMemory), histories of calls without memory (HistoryMemory), time steps and named observations without
  memory (StepMemory), forward and forward-backward inference without memory (FilterMemory, LikelihoodMemory,
  SmoothMemory).
* the integer arithmetic of `nippotential.c` and of the costs of triangulation with `int` as it is (PotentialInt, TriangulateInt).
* the command line programs in `util/`, as far as they compute something (Programs); from the texts of the files on for
  `nipinference`, `nipmap`, `nipnext` (Whole), `nipsample` (Sample), `niptrain` (Train), `niplikelihood`, `nipjoint` and `nipconvert` (Reports),
  `nipbenchmark` (Benchmark); the awk scripts `select.awk` and `hide_values.awk` (Scripts).

Not modelled: the tables that Bison generates from the grammar (the grammar is modelled as a recursive descent parser), the number formats of the C
library (`%f`, `%g` and `strtod` are arbitrary functions with stated laws), files as objects of the operating system (a file is its text),
printing for debugging, freeing of memory except where a property is about it (C58, C69, C78, C87, C88, C97, C102, C106, C108, C109, C110, C111, C112, C113, C114, C115, C116, C117).

## Layout

* `Verif/Basic.lean` – outcome type, checked array access, loops.
* `Verif/<Module>.lean` with the heading "Model of …" – the model (definitions, each citing the C source).
* `Verif/Spec/*.lean` – vocabulary of the specifications, independent of the model.
* the other modules in `Verif/` – helper lemmas.
* `Verif/Props/*.lean` – statements and property theorems, each with an `example` that its hypotheses are met by a concrete, non-trivial case:
  * `Accept.lean` – C85, C86
  * `Accuracy.lean` – C105
  * `AnyArithmetic.lean` – C104
  * `AnyOrder.lean` – C95
  * `Ascent.lean` – C62
  * `Benchmark.lean` – C94
  * `CliqueMemory.lean` – C111
  * `Continue.lean` – C61
  * `Convert.lean` – C79, C80
  * `DataFile.lean` – C44, C45
  * `DataMemory.lean` – C108
  * `Dynamic.lean` – C52, C53
  * `EmLoop.lean` – C50
  * `Errors.lean` – C55
  * `Expect.lean` – C59
  * `FilterMemory.lean` – C115
  * `Generate.lean` – C66
  * `Graph.lean` – C22, C23, C24, C25
  * `GraphMemory.lean` – C109
  * `Heap.lean` – C13, C14, C15
  * `HeapMemory.lean` – C110
  * `HistoryMemory.lean` – C113
  * `HuginLex.lean` – C67
  * `HuginParse.lean` – C68, C69
  * `Impossible.lean` – C96
  * `InferMemory.lean` – C112
  * `Inference.lean` – C31, C32, C33, C34, C35, C36, C37, C38, C39, C40
  * `Joint.lean` – C65
  * `JointText.lean` – C92
  * `Learn.lean` – C51
  * `LikelihoodMemory.lean` – C116
  * `Lists.lean` – C20, C21
  * `MassAccuracy.lean` – C107
  * `Mlss.lean` – C99
  * `NetTable.lean` – C46, C47
  * `Potential.lean` – C01, C02, C03, C04, C05, C06, C07, C08, C09, C10, C11, C12
  * `PotentialInt.lean` – C101
  * `PotentialMemory.lean` – C102
  * `Programs.lean` – C75, C76, C81
  * `ProgramsLinks.lean` – C75, C76, C81
  * `Question.lean` – C72, C73, C74
  * `Read.lean` – C63
  * `ReadAgain.lean` – C71
  * `Records.lean` – C77, C78
  * `Reports.lean` – C91, C93
  * `RoundTrip.lean` – C71
  * `Rounding.lean` – C100
  * `Rounds.lean` – C60
  * `Sample.lean` – C89
  * `Sampling.lean` – C48, C49
  * `Scripts.lean` – C98
  * `SepsetMemory.lean` – C88
  * `Series.lean` – C54
  * `SeriesMemory.lean` – C106
  * `SmoothMemory.lean` – C117
  * `Smoothing.lean` – C56, C57, C58
  * `StepMemory.lean` – C114
  * `Tokens.lean` – C41, C42, C43
  * `Train.lean` – C90
  * `Tree.lean` – C28, C29, C30
  * `TreeMemory.lean` – C87
  * `Triangulate.lean` – C26, C27
  * `TriangulateInt.lean` – C103
  * `Variable.lean` – C16, C17, C18, C19
  * `VariableMemory.lean` – C97
  * `Whole.lean` – C82, C83, C84
  * `Write.lean` – C64
  * `WriteModel.lean` – C70

## Findings

Where a property is false of the code the manifest names a theorem that says so, for a witness or for all inputs of a kind.  In short:

* Memory errors: heap growth by elements taken for bytes (C15); identities outside the graph (C23); one token too many (C42); a missing observation asked
  for by name (C54); two columns for one variable (C63); a joint distribution over two cliques (C65); two variables with the same successor (C53);
  a label freed while the next node uses it, a file without potentials (C68); a second successful `parse_model` in a process (C69); `niplikelihood`
  without names (C78).
* Wrong numbers: normalisation over a dimension (C08), and with it every file with a parent declared before its child (C47, and from there C68, C71,
  C72, C82, C83, C84); priors forgotten by a retraction (C36); the default table (C47); temporal links from variables without children (C53, C56, C59);
  the mark for impossible data added up (C57); learning that starts with uniform priors (C61) and need not increase the likelihood (C62); short lines read
  as first states (C63); zeros for impossible parents (C70); later records of `niplikelihood` (C77); `nipconvert` and mixed series (C79).
* Wrong order or choice: heap updates (C14); sorting from four variables on (C19); a random number equal to zero (C48, C66).
* Wrong reports: a tree of one clique (C30); unknown states (C73); a counter that overflows (C55); up to two iterations too many (C80).
* Texts: separators inside quotes (C43, C67); headerless files (C45); empty series and a state called `null` (C64); names like `Inflation` (C67); names
  longer than 40 characters (C68); names with separators (C71).
* Memory lost: candidate separators that would close a circle (C88); an array when there is no memory for the cardinalities of a new potential
  (C102).  With no memory for its numbers a pointer is used that was never set (C102).  When memory runs out while time series are read, those read so far are lost
  (the answer is 0, and their array has been freed), and when it runs out while a line is split, freed memory or NULL is used; smoothing does not check the
  allocation of its array of messages; writing results of a variable that is not among them loses an array (C106).
* Data files and failing allocations: a list of state names that could not be created is read through NULL; an array of state names that could not be created makes closing read NULL;
  without memory for the fields of a line of data all lists are lost; without memory for an entry of a list a state is missing without any error; `read_timeseries` does not close the
  file after an error of the analysis (C108).
* Graphs and failing allocations: `nip_graph_to_cliques` does not check its copies, and the triangulation reads NULL (C109).
* The queue of candidates and failing allocations: `nip_set_heap_item` ignores that a replacement could not be noted, and the order is wrong later; `nip_heap_insert` loses the new item if a
  full queue cannot grow (C110).
* Cliques, separators and failing allocations: without memory for the numbers of states, `nip_new_sepset` frees pointers that were never set; `nip_confirm_sepset` loses an entry if only one of two
  could be allocated (C111).
* Inference and failing allocations: `nip_message_pass` does not check the mapping, which is read through NULL if any of the requests of `make_consistent` is refused (C112).
* Forgetting everything and failing allocations: `nip_global_retraction` does not check the clique of a family, which is NULL if the family of a variable without potential is searched for and
  memory is refused (C113_unfurnished).  With a potential for every variable no call but inference is undefined when memory runs out (C113).
* Values of a time step are lost without a report: `insert_ts_step` (src/nip.c:1009-1029) drops the codes of `nip_enter_index_observation`, so it returns success when memory is refused
  (C114_step, C114_step_lost).  `insert_hard_evidence` returns ENOMEM in that case, but only after inference without the observation (C114_named).
* Forward inference and failing allocations: `start_timeslice_message_pass` and `finish_timeslice_message_pass` (src/nip.c:1058-1125) do not check the mapping, which is read through NULL if its
  request is refused; values of the series whose requests are refused are silently treated as missing, so the results are those for other data (C115_filtering, C115_answers);
  and the likelihood reported is the one of other data (C116_likelihood).
* `forward_backward_inference` enters every value twice; when memory runs out a value can be lost in one phase only, so that messages and evidence belong to different data, and no error is reported
  (C117_smoothing).
* Integers: tables of more than `INT_MAX` cells are not refused (C101); the costs of the triangulation overflow for a variable with 30 two-state
  neighbours, though all tables are small (C103).
* Nonsense accepted: nodes, potentials, fields or states given twice, negative numbers, directed cycles (C86).
* Rounding: the assertion `m2 >= 0` may fail, and all answers may be zero for possible evidence (C100), but not if relative errors are small enough (C105, C107).
* No end: sampling from a file with a directed cycle (C66).

## Plan per property

Potentials (`Verif/Potential.lean`): a potential is a list of cardinalities and a flat list of cells; loops are folds
with checked reads and writes.  Specification: the value of a cell is addressed by an index tuple, sums are sums over
all in-range tuples.

* C01 – round trip of the two index translations, by induction on the list of cardinalities (mixed radix numbers).
* C02 – from C01 (injectivity) and list update lemmas; histories by induction.
* C03 – loop invariant of the accumulation loop: after i source cells each destination cell holds the partial sum.
* C04 – same invariant for the partial decomposition, then equality with C03 for a one-element mapping.
* C05 – corollary of C03 by exchanging finite sums.
* C06 – direct from the loop semantics, field arithmetic.
* C07 – block loop invariant; block b consists exactly of the cells with the b-th tuple of the other variables.
* C08 – expected false (`normalise_dimension` divides by the marginal *of* the dimension): negation by witness, and a
  partial theorem for the case in which they agree.
* C09, C10, C11, C12 – loop invariants; memory safety included; error branches stated.

Heap (`Verif/Heap.lean`): array heap over items with two integer costs.

* C13 – invariant "heap order holds below position k" for build, sift-down lemma, multiset preservation by
  permutation; drain by induction on size.
* C14 – expected false for decreased costs: witness; partial theorem for updates that do not decrease the cost.
* C15 – expected false (growth asks for a number of *bytes* equal to the number of elements): witness; partial for
  histories that never grow.

Variables and lists:

* C16 – invariant over creation histories of the identity counter.
* C17, C18 – list induction; safety of writes into arrays of computed size.
* C19 – expected false: witness; partial: permutation and the sizes for which it does sort.
* C20 – heap of list cells with next/previous links; representation invariant proved preserved by every operation.
* C21 – list induction.

Graphs:

* C22, C23 – adjacency matrix plus lazily built index table; refinement to (list of nodes, set of edges); C23
  expected false (unchecked table access): witness, partial for identities in range.
* C24, C25 – characterisation of the nested loops.
* C26, C27 – elimination game on sets of nodes with arbitrary choice of next node (a superset of what the heuristic can
  choose), invariant: clusters stored in the heap are the closed neighbourhoods of the current graph.
* C28 – Kruskal loop over an arbitrarily ordered list of candidate separators; connectivity by marking DFS is proved
  correct; invariant: forest.
* C29 – weight-counting argument (rank of edge sets): maximal spanning tree of the elimination cliques has the running
  intersection property.
* C30 – expected false for one clique: witness; partial for at least two cliques.

Join tree (`Verif/JoinTree.lean`): store of cliques and separators with marks, exactly the recursive traversals of the
C code; semantic reading of a potential as a function of a full assignment; refinement from flat tables.

* C31 – multiplicative form of the invariant (product of cliques = target × product of separators) with zeros tracked.
* C32 – traversal lemma (marking DFS on a tree is structural recursion), local consistency after collect and
  distribute, then local ⇒ global by induction on the rooted tree.
* C33, C34 – corollaries with normalisation and tree counting.
* C35, C40 – invariant that the represented target equals parameters × entered priors × latest evidence for every
  history of operations.
* C36 – expected false (retraction drops the priors): witness and partial theorem.
* C37, C38, C39 – direct from the operations, with induction over histories.

Strings and files:

* C41–C43 – the two state machines are run in lock step over the characters; C42, and the quoting part of C43, expected
  false: witnesses and partial theorems.
* C44, C45 – fold over the list of lines, against an independent specification by splitting at blank lines.

Model file:

* C46 – `create_potential` is a permutation of dimensions: characterised by index tuples.
* C47 – expected false when the child is not the variable with the smallest identity: witness; partial otherwise.

nip.c:

* C48 – the loop finds the first prefix sum reaching r; "never probability zero" expected false for r = 0: witness and
  partial.
* C49 – fixpoint loop with fuel, progress for acyclic networks.
* C50 – loop control over an arbitrary sequence of likelihoods.
* C51 – from C07 and C11 through the join-tree store.
* C52, C53 – induction over time using C32.
* C54 – list updates; "missing reads back as absent" expected false (index −1): witness.
* C55 – induction over histories.
* C56–C58 – two inductions over time (forward messages, backward messages), on top of C32; C58 by induction over the
  sequence of calls.

Learning (`Verif/Learn.lean`: `nip_find_family_mapping`, `m_step`, `e_step`, `em_learn`):

* C51 – the M-step refines the map on network files "same variables and parents, tables = normalised counts"
  (`NetFile.relearn`); loop invariant over the variables, the state after it is a state of the relearned network, so all
  theorems about inference apply to it.
* C59 – the loop invariants of C56 with posteriors of families instead of single variables. Outcome: `C59_expected_counts_partial` for files
  whose temporal links make sense; false without (`C59_unlinked_refuted`: a variable with a successor that is no parent is counted in every slice).
* C60 – the loop of `em_learn` is the loop of C50 run on the counts of the specification. Outcome: `C60_rounds_partial` for files whose
  temporal links make sense; false without (`C60_shared_next_refuted`).
* C61 – the starting point is taken from tables that do not contain the priors. The tables of a clique are the product of the tables of the file
  entered there (`build_parts`); for normalised tables and no directed cycle, the children are summed out from the last to the first. Outcome:
  false for priors (`C61_priors_refuted`); `C61_levelled_partial`: exactly the priors change, they become uniform.
* C62 – false because of the pseudo counts: witness (one variable, one observation). Partial theorems: (a) for any run that ends with success, the log
  likelihood drops by at most the threshold per time step from one round to the next (induction over the rounds); (b) over the real numbers, the
  likelihood of the data times the product of all parameters never decreases from the second round on (Jensen's inequality for the expectation
  step, Gibbs' inequality for the maximisation step), provided that variables with a successor have no parents; (c) the sum of the logarithms
  reported by the code is the logarithm of the probability of the data, for normalised tables and no directed cycle. Outcome: (a) is
  `C62_drop_partial`, (b) and (c) together are `C62_penalised_partial` (`Verif/Ascend.lean`), about the learning curve of `em_learn`.
* C63 – `read_timeseries` and `nip_next_line_tokens` are modelled in `Verif/Series.lean`; specification in `Verif/Spec/Series.lean` (what a line says about
  a variable, in terms of fields of a line). Expected to be false: the rest of a short line is left at the zeros of `calloc`, which is the first
  state and not missing, and a column named twice makes the array of hidden variables too small. Proof: `analyse_eq` gives the rows of the
  analysis; induction over the lines of the file shows that the n-th call of `nip_next_line_tokens` returns the fields of the n-th data line.
  Outcome: as expected; `C63_reads_partial`, `C63_short_line_refuted` and `C63_two_columns_refuted` (the two refutations for all such files).
* C64 – same model; the file written is a list of lines, whose fields are the words written (`joinFields`); then C63. Expected conditions: names are
  non-empty words without whitespace and commas, no state is called `null`, lines fit the buffer of `fgets`. Expected to be false for series of
  length zero, which leave only a blank line.
  Outcome: as expected; `C64_round_trip_partial`, `C64_empty_refuted` (exactly the non-empty series come back), `C64_null_refuted`.
* C65 – new model of `nip_gather_joint_probability` (`Verif/Joint.lean`). Expected to be false as soon as there are two cliques: the table received
  from a neighbour has more dimensions than the mapping made for it, so that the mapping is read outside its array, or the separator contains none
  of the variables and the function gives up. Refutation for all trees by following the first neighbour; the case of one clique as partial theorem.
  Outcome: as expected; `C65_two_cliques_refuted`, `C65_refuted`, `C65_one_clique_partial`.
* C66 – new model of `generate_data` (`Verif/Generate.lean`) on top of the inference over time; random numbers are a list. Specification: the
  conditional distribution given earlier values is a quotient of weights of the unrolled network (`Verif/Spec/Unrolled.lean`), the interval rule is
  that of C48. Proof: the forward message after a slice in which everything is observed, as in C53.
  Outcome: `C66_draws_partial` (general files), `C66_data_partial`, `C66_chain` and `C66_distribution_partial` (networks of conditional
  probabilities; the last uses Lebesgue measure on the cube of random numbers). Refuted: `C66_cycle`, `C66_zero_refuted`.
* C67 – new model of `nip_next_hugin_token` with its static variables and of `yylex` (`Verif/HuginLex.lean`) on top of the tokeniser of C41–C43.
  Specification: a layout is a list of lines, each a list of lexemes with white space and an optional comment; its text is written down by a
  function that knows nothing of the tokeniser. Theorem: reading the text gives the lexemes back. Proof: the tokeniser is rewritten as a recursion
  over the rest of the line, then induction over the lexemes of a line and over the lines. Expected to be false for names like `Inflation`
  (`strtod` accepts the beginning `inf`), for `A|B` without blanks and for a quoted text with a separator inside and a blank after it.
  Outcome: as expected (`C67_layout_partial`, `C67_safe`, `C67_refuted`); also a comment right after a name is read as part of the name.
* C68 – new model of the grammar of `src/huginnet.y` as a recursive descent parser over lexemes with the actions in the order in which Bison's
  parser does them (`Verif/HuginParse.lean`); `strtod` is an arbitrary function from words to numbers. Not modelled: the tables generated by Bison
  (that they recognise the grammar is assumed), positions and node sizes except for the conversion to `int`. Specification: a description and the
  function that spells it; the network described, by names. Theorem: parsing the spelled description gives the network (so that C46 and all theorems
  about inference apply). Expected to be false for nodes without label after nodes with one (pointer to freed memory), names of more than 40
  characters, empty lists of states, numbers or potentials: each as refutation.
  Outcome: as expected (`Verif/HuginNodes.lean`, `HuginPots.lean`, `HuginInput.lean`); `C68_reads_partial`, `C68_numbers_partial`, `C68_cut`;
  `C68_label_refuted` and `C68_no_potential_refuted` for all such files, `C68_long_name_refuted` and `C68_refuted` by witnesses.
* C69 – the model of C68 started with the static variables left by an earlier call. Expected to be false: after a success the lists of variables and
  potentials are freed but the pointers are kept.
  Outcome: false; `C69_once_refuted` (at most one success in a process; invariant in `Verif/HuginKeep.lean`), `C69_again_refuted`, `C69_line_refuted`,
  `C69_variables_refuted`, `C69_refuted`; `C69_fresh_partial` and `C69_described_partial` where nothing is left.
* C70 – new model of the computation in `write_model` (`Verif/WriteModel.lean`) using `generalMarginalise` and `normaliseCpd`; specification: the entry
  of the table in the file (`NetFile.entry`). Proof: the original potential of a clique is the product of the tables of the families assigned to it;
  the descendants of the variable are summed away one after another, what remains does not depend on the variable. Expected: columns for parent
  states that are impossible in the clique are written as zeros.
  Outcome: as expected (`Verif/WriteLemmas.lean`); `C70_columns_partial`, `C70_occurring_partial`, `C70_refuted`. Models after learning are not covered.
* C71 – the text printed by `write_model` is a layout in the sense of C67 of a description in the sense of C68; composition. `%f` is modelled by
  rounding to the nearest multiple of a millionth. Expected to be false as an identity: small numbers become zero, and names with separators.
  Outcome: as expected and worse (`Verif/RoundTrip.lean`, `Verif/RoundTripTables.lean`, `Verif/Props/RoundTrip.lean`): `C71_shape_partial`,
  `C71_numbers_partial`, `C71_same_partial`; `C71_order_refuted` (a child declared after its parent is normalised by the wrong sum),
  `C71_separator_refuted`, `C71_impossible_refuted`. The number formatting of the C library is the assumption `Formats`, met by `sixDecimals` over ℚ.
  `C71_file_partial` (`Verif/ReadAgain.lean`, `Verif/Props/ReadAgain.lean`) composes reading, use, writing and reading for every sensible file.
* C72 – new model of `model_variable`, `insert_hard_evidence` and `insert_soft_evidence` (`Verif/Named.lean`).  Specification at the level of the text
  (`Verif/Spec/Question.lean`): a combination of states is a list with one state for each node, its weight is the product over the potentials of the
  numbers written, times the evidence; the answer is a quotient of two sums over all combinations.  Proof: composition of C68, C71's lemma that the
  tables read are the tables written, the history theorem behind C34/C35 and a translation of sums.  False in full because of C47; partial for files
  that declare children before their parents.
  Outcome: as planned (`Verif/QuestionLemmas.lean`, `Verif/Props/Question.lean`): `C72_names_partial` for all sensible files with children before parents
  (tables in proportion to the numbers written), `C72_numbers_partial` (products of the numbers written themselves), `C72_refuted`.
* C73 – same model.  Expected to be false: an unknown state is reported as success (`nip_enter_observation` returns 0 for it, C39), against `nip.h`.
  Outcome: as expected, `C73_variable_partial`, `C73_state_partial`, `C73_refuted`.
* C74 – new model of `insert_ucs_step`; specification: `World.after` with one evidence operation for each marked variable.
  Outcome: proved, `C74_step` (stated as equality with the model after `nip_enter_evidence` for each marked variable).
* C75 – new model of `write_uncertainseries`, `get_posterior` and the main function of `nipinference` after reading its files
  (`Verif/Programs.lean`); output is text.  Specification: lines; the numbers are those of C56 (smoothing).
  Outcome: `C75_smoothed_partial` (all valid tables with sensible links, all sets of series that are possible), `C75_refused`,
  `C75_unknown` (`Verif/ProgramsLemmas.lean`, `Verif/Props/Programs.lean`).  `%f` is a parameter of the model.  For all links between declared variables
  C75, C76 and C81 are false because of C53 (`C75_refuted`, `C76_refuted`, `C81_refuted` in `Verif/Props/ProgramsLinks.lean`).
* C76 – model of the main function of `nipmap`; specification: a maximum of the smoothed distribution.  Expected: if the data are impossible the first
  state is written.
  Outcome: `C76_most_probable_partial` for possible data; `C76_nothing_hidden`: if nothing is hidden the program fails after it has emptied the
  output file.
* C77 – model of the main function of `niplikelihood`; specification: quotients of weights of the network.  Expected to be false for records after the
  first if the file has time links: the model is then used without the priors of the linked variables and without a message from the record before.
  Outcome: as expected (`Verif/ProgramsMass.lean`, `Verif/Props/Records.lean`): `C77_numbers_partial` says for every record what the two numbers are
  (weights of one time slice, priors only in the first record of the data), `C77_first_partial` that the quotient is right for the first record, and for
  all records without time links; `C77_refuted`: 139/240 instead of 167/240.
* C78 – model of `nipjoint` with the ownership of the arrays that are freed.  Expected to be false without names on the command line: `free(vars)` frees
  an array of the time series, and `free_timeseries` frees it again.
  Outcome: as expected and worse: `C78_no_names_refuted` (undefined for all files and data), `C78_two_cliques_refuted` (with two or more cliques
  `nip_gather_joint_probability` fails, the null pointer is used), `C78_named_partial` (with names and one clique: no error, right numbers).
* C79 – model of `write_unary_timeseries`; specification: lines.  Expected to be false for sets in which series observe different variables.
  Outcome: as expected (`Verif/ProgramsConvert.lean`, `Verif/Props/Convert.lean`): `C79_unary_partial`, `C79_refused`, `C79_refuted`.
* C80 – model of the inner loop of `niptrain` around `em_learn`.  Expected to be false: `em_learn` does three iterations even if fewer are asked for.
  Outcome: as expected: `C80_batches_partial` (up to two iterations too many, three if MAXI is not positive), `C80_limit_partial`, `C80_refuted`.
* C81 – model of `nipnext` on top of filtering (C53).
  Outcome: `C81_last_step_partial` for data that are possible; the logarithm is a parameter of the model.
* C82, C83, C84 – the main functions from the texts of the two files on (`Verif/Whole.lean`), composed of the models of C63, C68, C75, C76 and C81.
  Specification at the level of texts (`Verif/Spec/Story.lean`): a story is a list of combinations of states, one for each time step; its weight is the
  product of the numbers written (in proportion), zero if linked nodes disagree or a name in the data is contradicted; the answer is a quotient of sums
  over all stories.  Proof: the sum over stories is the sum over assignments to the unrolled network; slice by slice the translation of C72.  False in
  full because of C47 and C63; partial for files with children before parents, at most one column for a node, lines with all columns, possible data.
  Outcome: as expected: `C82_inference_partial`, `C83_map_partial`, `C84_next_partial` for good files (`GoodFiles`), with the number and the length of
  the lines also for data that are impossible; `C82_refuted`, `C83_refuted`, `C84_refuted`: a two-node file with the parent declared first gives
  other probabilities, a less probable state, and other logarithms.

Acceptance, and the memory of the join tree:

* C85 – inversion of every rule of the parser (`Verif/HuginParse.lean`): if the rule succeeds, the lexemes it has taken are those of a part of a
  description (`Verif/Spec/HuginNet.lean`), and the static variables changed as that part says.  By induction on the bounds of the lists.  Statement with
  the lexemes that the lexical analysis returns, and, independently of it, for every layout of C67.
  Outcome: `C85_only_networks`, `C85_layout`; the description is unique (`lexemes_injective`).
* C86 – expected false: nothing looks for names given twice, potentials given twice, negative numbers or fields given twice; a witness for each.  Partial:
  what acceptance does guarantee (states, known names, enough numbers, successors), from the same inversion.
  Outcome: as expected, also states with the same name and variables that are parents of each other are accepted (`C86_…_refuted`).
  `C86_required_partial`; with the conditions that nobody looks at, acceptance is characterised exactly (`C86_exactly`, with C68).
* C87 – `Verif/TreeMemory.lean`: cliques, separators and list cells live in a store; an access to a dead address is `ub`.  Specification: a list of
  separators (confirmed, with the names of their two cliques) in order of confirmation; the list of a clique is a filter of it.  Refinement by
  induction over histories; invariant: the cells of each clique form a doubly linked list, cells of different cliques are different.  The conditions
  (different cliques, confirmed once) are needed: witnesses.
  Outcome: as planned; `C87_history` also counts the cells (two for each confirmed separator), `C87_freed`, `C87_needed`.
* C88 – `Verif/SepsetMemory.lean`: the loops of `nip_build_sepset_heap` and `nip_create_sepsets` with the calls they make on the store of C87 written
  down, including the last loop that frees what is left in the heap; the model of C28 is the same without the calls (proved).  Expected false: a candidate
  taken out of the heap whose cliques are already connected is neither confirmed nor freed; witness with four cliques.  Partial: the calls are an allowed
  history of C87, the confirmed separators are those of the tree, exactly the rejected candidates stay, none with at most three cliques.
  Outcome: as expected (`C88_refuted`); `C88_lost_partial` says which candidates are lost, by the numbers of shared variables.

More whole programs:

* C89 – `main` of `nipsample` (`Verif/Sample.lean`): arguments, `generate_data` for each series on the model as the series before left it, and
  `write_timeseries`; the random number for place `i` of step `t` of series `k` is an argument `r k t i`.  `strtol` and `strtod` are parameters (whether they
  find a number, and which).  Specification at the level of texts, with stories (C82) and intervals (C66).  Proof: C66 for one series from any state of the
  model, induction over series, translation of posterior probabilities as in C82, text as in C79; the volume is a product over series.  Expected to be false
  in full: a random number equal to zero draws an impossible state (C66), number tables that are missing or zero, late parents (C47), directed cycles;
  a number of series between 0 and 1 passes the test of the program.  Partial for network files in which each node has a potential with numbers not
  all zero, children are declared before parents and linked nodes have no parents.
  Outcome: as expected (`C89_lines_partial`, `C89_distribution_partial`, `C89_refuted`, `C89_arguments`).  Found on the way: the numbers of series and of
  time steps are converted to `int` before they are tested (`util/nipsample.c:92`, `:101`), which is undefined for numbers that do not fit
  (`C89_huge_refuted`); a number of series between 0 and 1 passes the test, becomes 0 and is refused only by `write_timeseries`.
* C90 – `main` of `niptrain` (`Verif/Train.lean`): arguments, the two nested loops as one sequence of calls of `em_learn` (`emLearn` of C60) on the model as
  the call and the `write_model` before left it, the stopping criterion that is not reset, the learning curve, and the final `write_model`.  A number
  bounds the calls; `none` is the program that has not stopped yet.  Specification (`Verif/Spec/Trained.lean`): what the lines of a data file tell, as
  `Evidence`; calls as pairs of starting counts and rounds.  Proof: invariant of the sequence of calls (the model is an idle model of some network with the variables
  and parents of the file); needed for it: what `m_step` leaves in the original tables of the cliques, clique by clique, the text written for a
  network that was learnt (C71 without the assumption that the model comes from a file).  Expected: the full statement is false because of labels
  (C68), and the program need not stop.
  Outcome: as expected (`C90_trained_partial`, `C90_refuses`, `C90_unread`, `C90_label_refuted`, `C90_refuted`, `C90_endless_refuted`).  The specification
  describes all calls of all runs, not only the last one, because the code keeps the stopping criterion of an earlier call when a later one has bad luck
  (`Ending.since`): a run after one that converged ends at the first call with bad luck, even if rounds are left; after one that came to its last round the
  next call goes on from the network with bad luck, without random numbers.  Series without columns need not be considered, as the program
  refuses them.  `fprintf(stderr, …)` is left out; so are the contents of the output file while the program is running, and failures to open files.
* C91 – `main` of `niplikelihood` (`Verif/Reports.lean`): the beginning as in C82, `niplikelihood` of C77, and the text printed; `%g` is a parameter, so are the
  texts for infinite results and those that are not numbers.  Specification: totals of C72 (`NetText.total`) for what a line tells (C82), with and without the nodes
  named.  Proof: C77 gives the two numbers as weights of records; their translation to texts is that of a time step of a story (C82).  Expected: false in full from the
  second line of a series on if nodes have successors (C77), and for late parents (C47); partial: the first line of each series, all lines without links.
  Outcome: as expected (`C91_lines_partial` for every line of good files, `C91_likelihood_partial`, `C91_unread`, `C91_no_lines`, `C91_refuted`).
* C92 – `main` of `nipjoint` with the text printed by `nip_fprintf_potential` (`Verif/Reports.lean`).  Expected: false without names for all good files (freed twice, C78) and
  with several cliques (C65).  Partial: names of different nodes, network files in which one potential mentions all nodes; then there is one clique, because a family lies
  in a clique (C27) and no clique is part of another (C26).
  Outcome: `C92_joint_partial` holds for all files in which every two nodes are neighbours (same potential, or both at the same end of a link over time), which
  includes the files with one potential for all nodes.  `C92_cliques_refuted`: undefined whenever every node has another one that is not its neighbour, because
  the first clique found has only neighbours of one node.  `C92_no_names_refuted`, `C92_unknown`, `C92_unread`, `C92_no_lines`, `C92_refuted`.
* C93 – `main` of `nipconvert` (`Verif/Reports.lean`), `strcasecmp` in the C locale.  Proof: C79 for the series read, translation of fields as in C82.  Expected: partial for good
  files, false for labels (C68).
  Outcome: as expected (`C93_convert_partial` for all files as in C82 with nodes in any order, `C93_unread`, `C93_label_refuted`, `C93_refuted`).
* C94 – `main` of `nipbenchmark` (`Verif/Benchmark.lean`): the array `loo_set` with its pointers, the marks of the variables, the loop around `em_learn` for a bounded
  number of calls as in C90, `forward_backward_inference` with the likelihood (C56, C57), `write_uncertainseries` (C75).  Specification: calls of C90 for the evidence of
  the other series; posteriors and probabilities of the unrolled network learned, for evidence in which the node is not seen.  Proof: `em_learn` begins with a total
  reset and `forward_backward_inference` with a reset, so that both may start with any state of the model that stands for a network (`Carries`); the lemmas of C56
  and C60 are generalised to that; a network learned has no zeros, so that all data are possible.  Expected: partial for good files, false for labels (C68); with five
  arguments instead of six the program does all the work, writes nothing and returns 0.
  Outcome: as expected (`C94_benchmark_partial` for all files as in C82, nodes in any order, with at least two series; `C94_refuses`, `C94_unread`; `C94_no_output` says what happens without an output
  file, `C94_no_output_refuted` that this is not what was asked; `C94_label_refuted`, `C94_refuted`).  A series that contradicts itself through the links between time steps
  is given numbers about which nothing is said except their count, and the lowest log likelihood.
* C95 – no new code is modelled.  Specification: the definitions of `Verif/Spec/Question.lean`, `Story.lean` and `Report.lean` get the meaning of the numbers of a
  potential as a parameter (`Reading`): in proportion over the states of the child (C72, C82–C84, C91, C92), or over the states of the node of the family that is declared
  first.  Proof: the lemmas that lead from the unrolled network to the texts use the order of declaration only in one place, where the entries of a table are compared
  with the numbers of the file; there the table read is the one of C47 for any order.  The condition on the order is taken out of `GoodFiles` where it is not needed
  (C93, C94).  Expected: proved for files as in C82 without the condition on the order.
  Outcome: as expected for questions, `nipinference`, `nipmap` and `nipnext` (`C95_answers`, `C95_inference`, `C95_map`, `C95_next`); for `niplikelihood` and `nipjoint` the
  limits of C91 and C92 remain (`C95_likelihood_partial`, `C95_joint_partial`, `C95_refuted`).  `C95_child_first`: with children first this is what C72, C82–C84, C91 and C92 say.
* C96 – no new code is modelled.  Specification: zeros, and the posteriors of the unrolled network (C53, C56) or of stories (C82) for the whole series or, without links, for
  the time step alone.  Proof: the messages between time steps are in proportion to sums over the slices before (behind) also if these are zero, since a message of zeros is
  not normalised; only without links a message says nothing about the slices before.  The invariants of C53 and C56 lose the condition that the data are possible.
  Expected: proved, for files as in C95.
  Outcome: as expected for the library (`C96_smoothing`, `C96_filtering`).  For the programs the network file must not have a potential without parents that has only zeros
  (`C96_programs_partial`, `C96_good_partial`, `C96_first_states_partial`): such a potential is ignored when the priors are entered, so the programs go on as if it said nothing
  (`C96_refuted`).
* C97 – `Verif/VariableMemory.lean`: blocks of memory at addresses given in order; pointers are null, addresses or not initialised; reading or freeing through a pointer that is
  not initialised, or to a block that is not there, is `ub`; which allocations fail is given by a function.  The texts themselves are left out.  Specification
  (`Verif/Spec/VariableMemory.lean`): for a history of calls the variables that exist and the number of blocks each of them needs.  Proof: invariant that the blocks in use are
  those of the variables, each owned once.  Expected: false for copies, for names of states that are NULL, without states and for failing allocations; proved for the rest.
  Outcome: the partial claim holds (`C97_memory_partial`, `C97_freed_partial`: no allocation fails, nothing is copied, all names of states are given; any history of calls on
  variables that exist); replacing a text (`C97_text`).  The rest is false: copying a variable with a name frees a pointer that was never set, and a copy cannot be freed (`C97_copy_refuted`); a NULL among
  the names leads to the use of freed memory (`C97_null_state_refuted`), no names to a variable that cannot be freed (`C97_no_states_refuted`); failing allocations lead to the
  use of freed memory (`C97_likelihood_refuted`, `C97_name_refuted`) or to blocks that are never freed (`C97_leak_refuted`).
* C98 – `Verif/Scripts.lean`: the two scripts, line by line and field by field (awk: records are lines, `FS` is a comma, an empty line has no field, elements of arrays that
  were not set are empty or zero, two texts that both look like numbers are compared as numbers – which texts do is a parameter).  Specification (`Verif/Spec/Scripts.lean`): columns
  kept, their values and the commas between them.  Expected: `select.awk` for names that do not look like numbers; `hide_values.awk` false if the last column is dropped (a comma too
  many), proved if it is kept.
  Outcome: as expected.  What `hide_values.awk` prints is proved exactly for all files (`C98_hide_exactly`); it is what it should be if the last column of each line is kept
  (`C98_hide_partial`), otherwise a comma is left over (`C98_comma_refuted`).  `select.awk` prints the column (`C98_select_partial`) or ends with exit code 1
  (`C98_missing_partial`), but the exit code is 0 if there is only a header (`C98_header_only_refuted`), and names that are equal as numbers are taken for the same
  (`C98_number_refuted`).
* C99 – `Verif/Series.lean`-like model of `mlss` in `Verif/Mlss.lean`.  The body of the algorithm is missing in the code, so the claim is false; the shape of the result can be
  proved.  Specification: the probability of a sequence of states in the unrolled network (`Verif/Spec/Unrolled.lean`).
  Outcome: what the function returns is proved exactly for all arguments (`C99_result`), the shape for different variables of the model (`C99_shape_partial`).  The states are
  wrong in every network for all data that can happen and show a variable asked for in a state other than the first (`C99_states_refuted`); hence `C99_refuted`.
* C100 – The functions of the model are stated for any type with 0, 1, `+`, `-`, `*`, `/` and a linear order, instead of a field only, so that
  they can be run on machine numbers.  `Verif/Spec/Rounding.lean`: the laws of a rounding function and the type `Machine` of machine numbers,
  i.e. numbers of the field or `nan`, with rounded operations, where division by zero gives `nan` and `nan` never goes away.  A number is `Sound`
  if it is not `nan`, not negative and rounded.  Plan: (1) every function on potentials preserves sound tables and does not leave its arrays
  (shape invariants as in the exact proofs, without their algebra); (2) messages, collection, distribution, retraction and the mass preserve
  both (the traversal proofs with an arbitrary invariant in place of the exact one); (3) histories of a network built from a file;
  (4) `nip_normalise_array`: partial sums grow, so a quotient is at most `fl 1 = 1`; (5) time series.  Failing half: witnesses with a coarse
  rounding, for sums, for underflow and for the assertion `m2 >= 0` of `forward_inference` if a witness exists.  Not expressible: overflow of
  doubles to infinity (the rounding is a total function; stated as an assumption).
  Outcome: `Verif/AnyNumbers.lean` … `Verif/AnyDynamic.lean` prove once, for any set of numbers that is closed under the operations used (`Closed`) and any property of
  normalised numbers, that no call leaves its arrays and that all tables stay in the set; `Verif/Props/Rounding.lean` takes sound machine numbers.  Histories and
  questions (`C100_questions`) and sampling (`C100_sampling`) as planned; filtering and smoothing when the log likelihood is not asked for
  (`C100_filtering_partial`, `C100_smoothing_partial`).  If it is asked for, the assertion can fail although the file and the data are sensible
  (`C100_assertion_refuted`): `nip_mass` subtracts separators from cliques, and the products in the outer cliques may be rounded to zero while the separators are
  not.  `C100_sum_refuted` and `C100_zero_refuted` show what else rounding breaks.
* C101 – `Verif/PotentialInt.lean`: the functions of `src/nippotential.c` again, with every integer product and sum checked against `INT_MAX`
  (`ub` when exceeded).  Theorems: creation is `ub` iff a prefix product exceeds `INT_MAX` (spec: `List.take`/`prod`); if the size of a
  well-formed potential fits, each checked function equals the unchecked one of `Verif/Potential.lean` for legal arguments.
  Outcome: as planned.
* C102 – the memory model of C97 (`Verif/VariableMemory.lean`) with blocks for the structure, its arrays, the list of properties, its links and
  strings, and an oracle for allocations.  Theorems about all histories of `new`, `copy`, `set property`, `free` by a ledger invariant;
  refutations by an oracle that fails at one place.
  Outcome: as planned; also the answers to questions for properties, and what each failing allocation does, in memory of any contents.
* C103 – `Verif/TriangulateInt.lean`: the two cost functions with checked products and sums (`mulInt`, `addInt` of C101) and the functions that call them
  (`nip_heap_insert`, `nip_set_heap_item`, `nip_build_cluster_heap`, `nip_update_cluster_heap`, `nip_triangulate_graph`).  Theorems: building the heap is `ub` iff a leading product over
  a closed neighbourhood is too large (invariant of the loop: the heap so far is that of unbounded integers); with all clusters made of different variables of the graph their
  products divide the product over all variables, so no round overflows if that fits; the star with `n ≥ 31` leaves for all `n`.
  Outcome: as planned; the exact bound for the star is 30 leaves.
* C104 – the generic development of C100 with the set of all numbers: the statement quantifies over the operations (type class instances).  Only comparisons are assumed to be those of
  some linear order.
  Outcome: as planned; `NetFile.Valid` was split into `NetFile.Fits` (shapes) and non-negative numbers for it.
* C105 – the model is generic in the arithmetic.  A homomorphism between two arithmetics (zero, one, sums, products, quotients with divisors that are not zero, tests for
  zero and for positive numbers) commutes with every function of the model (`Verif/Homomorphism*.lean`).  One more arithmetic (`Verif/Tracked.lean`): an exact number, the
  number which each machine has in its place, and a count of roundings such that the numbers are within the factor (1 + e)^count of the exact one for each machine.  Its
  projections to the exact numbers and to each machine are homomorphisms, so one calculation in it gives the exact one, those of all machines, and a count that holds for
  all of them.  The machines are given the numbers of files and evidence after any fixed number k of roundings.  Subtraction is not of this kind; it is only used for the
  probability mass, whose value does not influence anything else (`match_mass`), so histories may contain questions for it, but nothing is said about its value.  The log
  likelihood is not asked for.  The exact answers are those of C33 and C96.  Outcome: proved (`C105_history` for questions at any time, `C105_questions`, `C105_filtering`,
  `C105_smoothing` and limits).  Machines with p binary digits and any exponent that cut off the rest meet the hypotheses (`cutting_accurate`).  What `nip` does with tables
  while it reads them (normalisation) is part of the fixed number k of roundings, not modelled on machines here.
* C106 – the memory model of C102 (`Store`, with the oracle for allocations) with blocks for a time series, a set of results, arrays of pointers and of numbers
  (`Verif/SeriesMemory.lean`): `read_timeseries` with `nip_next_line_tokens`, `free_timeseries`, `forward_inference`, `forward_backward_inference`, `mlss`,
  `free_uncertainseries`, `write_uncertainseries`, as far as they allocate, write pointers and free; every loop and every error path.  A data file and a potential are one
  block each (potentials: C102), and whether the passing of messages reports an error is arbitrary.  Theorems: all histories of calls without failing allocations by a ledger
  invariant; each function for all oracles from memory of any contents (invariants of the loops that allocate and of those that free); exact losses.
  Outcome: as planned; how many series are lost is a number in `C106_read` (those read before the failure), with a run in `C106_read_lost` that loses one.
* C107 – `Verif/MassAccuracy.lean`: for a tree of any numbers the mass is a fold over the visits of the traversal, in an order that depends on the shape of the tree only
  (`dfs_spec`), so it is the same order for the exact tree and the tree of each machine, both images of one tree of tracked numbers (C105).  Each visit adds or subtracts a sum, which
  is a tracked number; in a consistent tree each of these sums is the mass P.  Induction over the visits: after i of them the number of the machine is within ((1+e)^n - 1) i P of the
  exact one, which is at most i P in size; Bernoulli's inequality gives one exponent for the whole.  Inference over time with the likelihood: a round of the loop in tracked numbers
  without the logarithms, whose images are the rounds of the exact calculation and of each machine (with any logarithm, as long as the mass is not negative); induction over the rounds
  with the invariant of C57 (`Verif/MassInference.lean`).  The exact masses of all rounds are fixed before the machine is chosen; so for real numbers the errors of logarithms,
  differences and sums can be bounded by a constant times e, by induction over the list of masses.  Outcome: proved; `mirrored` machines meet the hypotheses.
* C108 – `Verif/DataMemory.lean`: the memory model of C102 (`Store`) with blocks for a data file, texts, arrays of integers and of pointers, and the doubly linked string lists (head
  and entries as in `src/niplists.c`), one function for each C function.  Fields of lines are found with the functions of `Verif/Tokens.lean` and `Verif/DataFile.lean`, so that the
  text of the file is the input.  Proof: a simulation.  `Verif/DataMemoryLemmas.lean` describes each list by the addresses and texts of its entries; a step of the analysis in memory
  represents the step `analyseStep` of C44/C45, the temporary blocks are exactly the array of lists, the lists, entries and texts; emptying a list keeps the texts, which are then owned by
  the array of state names.  With `analyse_eq` (C44) no step is undefined.  Failures: any oracle for opening and for the names of columns; the four defects by runs (witnesses), the
  missing close in `read_timeseries` for every file and every oracle for which the analysis reports an error.  Not modelled: `FILE*` (opening and the lines are inputs).
  Outcome: as planned.  `Verif/DataMemorySafe.lean`: for every oracle the analysis reaches, from the file, only addresses after the file and its name; so these stay in use and what was
  there before is unchanged (`C108_any_failure`).
* C109 – `Verif/GraphMemory.lean`: the memory model of C102 (`Store`) with blocks for a graph, its matrix, its array of variables and its table of positions; one function for each C
  function.  Simplified: the entries of a table, or of the matrix of a moralised (etc.) graph, are computed by the functions of `Verif/Graph.lean` from what is in memory, and written at once.
  Specification (`Verif/Spec/GraphMemory.lean`): a ledger of nodes and edges for each graph.  Proof: each function represents the one of `Verif/Graph.lean`, except that the table may be
  missing; with the invariant `Holds` of C22; histories by induction, with the blocks in use as a multiset, for every oracle.  `nip_graph_to_cliques` before the triangulation: all oracles.
  Outcome: as planned (`GraphMemoryLemmas`, `GraphMemoryChange`, `GraphMemoryWorld`).  A graph that is NULL is only known to come with some allocation that fails, not which.
* C110 – `Verif/HeapMemory.lean`: the memory model of C102 (`Store`) with blocks for a queue, its array of pointers, its items, and the linked list of integers for noted replacements; one
  function for each C function.  `realloc` is an allocation of as many bytes as the code asks for (twice the number of elements), then the old block is freed.  Specification
  (`Verif/Spec/HeapMemory.lean`): the history replayed on the queue of C13 (`Verif/Heap.lean`), with one truth value per call that says whether there was memory.  Proof: a simulation of the
  queue of C13 whose contents carry the addresses of the items; sifting changes only the array of pointers; erasing the addresses commutes with sifting; histories by induction, for every
  oracle and with everything else in memory as a multiset of blocks.  The full queue: both outcomes of `realloc` (`C110_full`); the replacement that is not noted: after every history
  (`C110_update_lost`).
* C111 – `Verif/CliqueMemory.lean`: the tables live in the memory of C102 (`PotentialMemory.lean`), structures, arrays of variables, scratch arrays and list entries in a second memory of the same
  kind; each has its own oracle for failing allocations (so every pattern of failures is covered), and the numbers of blocks in use add up.  Sorting and intersection are those of
  `Triangulate.lean` and `Variable.lean`, written at once.  Specification (`Verif/Spec/CliqueMemory.lean`): what becomes of one table, and of two in a row, from which of their five allocations fail.  Proof: the creation of a
  table for all outcomes of its allocations (completing C102's cases), then case analysis in the order of the code with everything else in memory as a multiset of blocks; lists of separators
  by the places of their entries, linked in both directions (`SepChain`).  Freeing a clique that has separators is C87 and left out.
* C112 – `Verif/InferMemory.lean`: `nip_mapper`, `nip_message_pass`, the two passes, `make_consistent`, `nip_find_family` and `get_probability` again, with an oracle for failing allocations
  and two counters: requests so far and blocks not given back.  The arithmetic is that of `Potential.lean`, so the arrays are the same; a mapping that is NULL is an empty array, of which any
  read is undefined.  Specification (`Verif/Spec/InferMemory.lean`): granted or refused requests, and the number of separators with variables of the model.  Proof: one message in terms of
  the message of C11 (two requests, or none); then the two passes by induction over the tree like C11, each step giving either the result with unlimited memory and no refusal so far, or undefined
  behaviour and a refusal among the requests of the step; every separator is met once per pass.
* C113 – `Verif/HistoryMemory.lean`: global retraction, evidence, observations, forgetting, priors and histories with the oracle and the counters of C112.  Specification
  (`Verif/Spec/HistoryMemory.lean`): the requests of a call, and the calls of a history all of whose requests are granted; the place of a call in the sequence of requests is the sum of the requests
  before it.  Proof: reading a file finds the clique of the family of every variable with a potential; no call forgets one; with all families known the functions other than inference run in
  step with those of `JoinTree.lean` without a request; inference and questions by C112; histories by induction.  Reading the file is with unlimited memory (its failures are not modelled).
* C114 – `Verif/StepMemory.lean`: `insert_ts_step`, `nip_enter_observation` and `insert_hard_evidence` with the oracle and the counters of C112.  Specification (`Verif/Spec/StepMemory.lean`): the
  values of a row that are present and marked, and those among them whose requests are granted, by their positions.  Proof: the loop over the row performs observations one after another, each by the
  lemma on single calls of C113; invariant: the model so far is the one of the values kept so far.  The named observation: the index of the state as in C39, then C113 and C112 for the two parts.
* C115 – `Verif/FilterMemory.lean`: the messages between time slices, the answers and the loop of `forward_inference` with the oracle and the counters of C112; the results and the message are
  allocated before (C106), and the likelihood is not asked for.  Specification (`Verif/Spec/FilterMemory.lean`): the number of requests of a step, the request of each value, the series without the
  values that are lost, and the requests that must not be refused.  The invariant of the loop does not speak of probabilities: the parts of the model fit together (as in C100), all families are known
  (C113), and the run so far is the one of unlimited memory with the thinned series.  What the answers are then follows from C96.
* C116 – `Verif/LikelihoodMemory.lean`: the round and the loop of `forward_inference` with the likelihood asked for, otherwise as in C115.  Specification (`Verif/Spec/LikelihoodMemory.lean`): the requests
  of a step with the additional inference.  That the assertion about the mass never fails is known from C96 for the thinned series; given that, each round is compared with the round of unlimited memory,
  with the invariant of C115.
* C117 – `Verif/SmoothMemory.lean`: the rounds of both phases of `forward_backward_inference` with the oracle and the counters of C112; results and messages are allocated before, and the likelihood is
  not asked for.  Specification (`Verif/Spec/SmoothMemory.lean`): the requests of the steps of the backward phase, from the last step to the first; those of the forward phase are the ones of C115.
  Both loops are compared with those of unlimited memory, each with its own thinned series; the invariant is the one of C115 with all stored messages.  The answers follow from C96.

## Axioms

From `#print axioms` for every theorem named in `MANIFEST.json`.  The axioms are those of Lean's core library; no theorem depends on `sorryAx`,
`Lean.ofReduceBool` or an axiom of this development.

* no axioms (2 theorems):
  C55_returns_code, C87_needed

* `propext` (8 theorems):
  C14_refuted, C14_two_increases_refuted, C97_likelihood_refuted, C97_name_refuted, C97_leak_refuted, C97_refuted, C106_read_lost,
  C106_split_undefined

* `propext`, `Quot.sound` (26 theorems):
  C03_refused, C04_refused, C09_refused, C11_refused, C12_refused, C15_refuted, C15_within_capacity_partial, C16_reset, C16_update, C17_isect,
  C18_refused, C39_negative_index, C39_unknown_name, C44_lines, C44_short_lines, C46_too_few, C54_absent, C54_missing_refuted, C55_history_partial,
  C55_refuted, C75_unknown, C76_nothing_hidden, C78_no_names_refuted, C97_text, C97_copy_refuted, C98_every_text

* `propext`, `Classical.choice`, `Quot.sound` (377 theorems):
  C01_index_bijection, C02_single_write, C02_writes, C03_marginal, C04_total, C05_mass, C05_compose, C06_array, C06_potential, C07_columns, C07_local,
  C08_dimension_actual, C08_refuted, C08_equivalence_partial, C09_update, C10_evidence, C10_replace, C11_product, C11_order, C12_retract, C13_drain,
  C14_ordered_reachable, C14_increase_partial, C16_identities, C17_union, C18_mapper, C19_permutation, C19_refuted, C19_small_partial, C20_sequence,
  C20_empty_frees, C21_lookup, C21_contains, C21_subset, C22_graph, C22_full, C23_refuted, C23_in_range_partial, C24_moralise, C25_undirected,
  C25_interface, C26_triangulate, C27_family_and_interface, C28_spanning_tree, C29_running_intersection, C30_success_partial,
  C30_single_clique_refuted, C31_messages_keep_joint, C31_histories, C32_cliques_hold_marginals, C33_posterior_is_bayes, C34_mass_is_likelihood,
  C34_mass_ratio, C35_latest_evidence_wins, C35_evidence_only, C36_priors_stay_partial, C36_refuted, C37_reset_forgets, C38_priors_once,
  C38_second_request, C38_replaced_get_none, C39_known_state, C40_evidence_commutes, C41_counted_tokens, C41_too_many, C41_split, C42_fewer_partial,
  C42_plain_partial, C42_refuted, C43_tokens_partial, C43_unquoted_partial, C43_refuted, C44_series, C44_returned_value, C45_state_names_partial,
  C45_headerless_refuted, C45_refuted, C46_any_order, C46_no_data, C46_written, C46_file, C47_stored, C47_unchanged_partial, C47_no_parents,
  C47_refuted, C47_default_refuted, C48_first_state, C48_always_valid, C48_possible_state_partial, C48_refuted, C49_order, C49_cycle, C50_true_report,
  C50_stops, C51_new_tables, C51_model_relearned, C52_filtering_is_causal, C53_filtering_partial, C53_unlinked_refuted, C53_shared_next_refuted,
  C54_set_get, C54_refused, C54_set_outside, C56_smoothing_partial, C56_unlinked_refuted, C57_likelihood_partial, C57_no_interface_refuted,
  C58_repeatable, C59_expected_counts_partial, C59_unlinked_refuted, C60_rounds_partial, C60_shared_next_refuted, C61_levelled_partial,
  C61_uniform_priors_partial, C61_learning_partial, C61_priors_refuted, C62_drop_partial, C62_zero_threshold_partial, C62_pseudo_counts_refuted,
  C62_penalised_partial, C63_reads_partial, C63_two_columns_refuted, C63_short_line_refuted, C64_round_trip_partial, C64_empty_refuted,
  C64_null_refuted, C65_two_cliques_refuted, C65_refuted, C65_one_clique_partial, C66_draws_partial, C66_data_partial, C66_chain, C66_cycle,
  C66_distribution_partial, C66_zero_refuted, C67_safe, C67_layout_partial, C67_lines, C67_refuted, C68_reads_partial, C68_numbers_partial, C68_cut,
  C68_label_refuted, C68_no_potential_refuted, C68_refuted, C68_long_name_refuted, C69_once_refuted, C69_again_refuted, C69_line_refuted,
  C69_variables_refuted, C69_refuted, C69_fresh_partial, C69_described_partial, C70_columns_partial, C70_occurring_partial, C70_refuted,
  C71_file_partial, C71_shape_partial, C71_numbers_partial, C71_same_partial, C71_order_refuted, C71_refuted, C71_separator_refuted,
  C71_impossible_refuted, C72_names_partial, C72_numbers_partial, C72_refuted, C73_variable_partial, C73_state_partial, C73_refuted, C74_step,
  C75_smoothed_partial, C75_refused, C75_refuted, C76_most_probable_partial, C76_refuted, C77_numbers_partial, C77_first_partial, C77_refuted,
  C78_two_cliques_refuted, C78_named_partial, C79_unary_partial, C79_refused, C79_refuted, C80_batches_partial, C80_limit_partial, C80_refuted,
  C81_last_step_partial, C81_refuted, C82_inference_partial, C82_refuted, C83_map_partial, C83_refuted, C84_next_partial, C84_refuted,
  C85_only_networks, C85_layout, C86_required_partial, C86_sensible_partial, C86_exactly, C86_names_refuted, C86_potentials_refuted,
  C86_fields_refuted, C86_states_refuted, C86_circle_refuted, C86_negative_refuted, C86_refuted, C87_history, C87_freed, C88_lost_partial,
  C88_three_partial, C88_refuted, C89_lines_partial, C89_distribution_partial, C89_arguments, C89_huge_refuted, C89_refuted, C90_trained_partial,
  C90_refuses, C90_unread, C90_label_refuted, C90_refuted, C90_endless_refuted, C91_lines_partial, C91_likelihood_partial, C91_unread, C91_no_lines,
  C91_refuted, C92_joint_partial, C92_cliques_refuted, C92_no_names_refuted, C92_unknown, C92_unread, C92_no_lines, C92_refuted, C93_convert_partial,
  C93_unread, C93_label_refuted, C93_refuted, C94_benchmark_partial, C94_no_output, C94_refuses, C94_unread, C94_no_output_refuted, C94_label_refuted,
  C94_refuted, C95_child_first, C95_answers, C95_inference, C95_map, C95_next, C95_likelihood_partial, C95_joint_partial, C95_refuted, C96_smoothing,
  C96_filtering, C96_programs_partial, C96_good_partial, C96_first_states_partial, C96_refuted, C97_memory_partial, C97_freed_partial,
  C97_null_state_refuted, C97_no_states_refuted, C98_select_partial, C98_missing_partial, C98_header_only_refuted, C98_number_refuted,
  C98_hide_exactly, C98_hide_partial, C98_comma_refuted, C98_hundred, C98_empty, C98_refuted, C99_result, C99_shape_partial, C99_states_refuted,
  C99_twice_refuted, C99_refuted, C100_questions, C100_filtering_partial, C100_smoothing_partial, C100_sampling, C100_sum_refuted, C100_zero_refuted,
  C100_assertion_refuted, C101_creation, C101_creation_states, C101_two_states, C101_address, C101_indices, C101_marginal, C101_total, C101_update,
  C101_evidence, C101_init, C101_normalise, C102_memory, C102_freed, C102_property, C102_creation_refused, C102_lost, C102_undefined, C102_no_list,
  C103_heap, C103_triangulation, C103_network, C103_neighbours_undefined, C103_naive_bayes, C104_questions, C104_filtering, C104_smoothing,
  C104_sampling, C105_history, C105_questions, C105_smoothing, C105_filtering, C105_questions_limit, C105_smoothing_limit, C105_filtering_limit,
  C106_memory, C106_freed, C106_filter, C106_smooth, C106_smoothing_undefined, C106_mlss, C106_read, C106_observed_lost, C106_write, C106_write_lost,
  C107_mass, C107_mass_limit, C107_filtering, C107_smoothing, C107_filtering_likelihood, C107_smoothing_likelihood, C108_memory, C108_open,
  C108_early, C108_series_lost, C108_any_failure, C108_list_undefined, C108_array_undefined, C108_line_lost, C108_state_lost, C109_memory, C109_ample,
  C109_freed, C109_find, C109_cliques, C109_cliques_undefined, C110_memory, C110_full, C110_update_lost, C111_clique, C111_sepset, C111_confirm,
  C112_consistent, C112_each_request, C112_probability, C113_history, C113_undefined, C113_observation, C113_posterior, C113_unfurnished, C114_step,
  C114_step_unlimited, C114_step_lost, C114_named, C115_filtering, C115_answers, C115_enough, C116_filtering, C116_likelihood, C117_smoothing,
  C117_same, C117_enough
