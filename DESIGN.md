# Formal model of VeRyPy: design

The model is a Lean 4 development in `lean/Verif`. It mirrors the Python functions of
`/repo/verypy` one by one. Property theorems are in `lean/Verif/Props/*.lean`, apart from the
model (`lean/Verif/Model/*.lean`), from the specification vocabulary (`lean/Verif/Spec/*.lean`)
and from helper lemmas (`lean/Verif/Lemmas/*.lean`).

## General modelling decisions

* **Numbers.** Costs, demands and limits are exact rationals (`ℚ`). Python floats are not
  modelled, so rounding errors are outside the model. The tolerances `S_EPS` and `C_EPS`
  (`verypy/config.py`) are the exact rational `10^-10`.
* **Matrices.** `D : ℕ → ℕ → ℚ` is total. An out-of-range node id (an `IndexError` of numpy) is
  not modelled. Indexing into *lists* (routes, solutions) is modelled with an explicit
  `IndexError` result.
* **Optional constraints.** `C` and `L` are `Option ℚ`. Python's truthiness is followed: `0`
  counts as "not set".
* **Exceptions** are values of `Except PyErr`.
* **Loops** are `forBreak` (a `for` loop with `break`) or recursion with fuel. Where fuel is used,
  a theorem states that enough fuel exists or the theorem quantifies over all fuel values.
* **Logging** (`log(DEBUG..)`), printing and timing are not modelled. Code guarded by
  `__debug__` that only logs is dropped.
* **External solvers** (LKH, Gurobi) are parameters with a stated contract.

## Plan per property

| id | what is modelled | how it is proved |
|----|------------------|------------------|
| C01 | `sol2routes`, `routes2sol`, `without_empty_routes` | list induction |
| C02 | `objf`, `sol2routes` | list induction |
| C03 | `without_empty_routes` | list induction |
| C04 | `is_better_sol`, best-of fold | case analysis, fold invariant |
| C05 | `OrderedDictSet` as a state machine | refinement on histories; negation with a witness for the stale key list |
| C06 | `RouteData.from_solution/to_solution` | list induction on top of C01 |
| C07 | `update_auxiliary_data` | loop invariant |
| C08 | `normalize_solution` | sortedness and permutation uniqueness |
| C09 | `validate_solution_feasibility` | loop invariant, equivalence with a specification |
| C10 | `recalculate_objective` | induction |
| C11 | `D2D_c` | induction; negation for odd integer service times |
| C12-C15 | intra-route operators | loop invariants; neighbourhoods specified by list splitting, not indices |
| C16-C21 | inter-route operators | loop invariants |
| C22 | `_build_cumulative_lists`, `_check_3opt_move`, `MOVES_3OPTSTAR`, `do_3optstar_move` with the checker as a parameter (`Model/SolutionOperators`); without `SolutionAuxiliaryData` | the nested loops are one loop over all cuts and moves; the tables are demands and costs of the runs at the ends of the segments; case analysis over the 16 moves for the cost, the routes and the slices; repeated depots by comparing without them. Converse for non-negative data: no reconnection of the specification is missed |
| C23, C24 | `do_local_search` with operators as parameters with a contract | invariant over iterations |
| C25-C27 | savings heuristics, with interruption points | state machine invariant |
| C28 | cheapest insertion with a nondeterministic heap order: insertion heap with stale entries, validity test, seeds, several routes at once, completion of routes, handler of interrupts, insertion callbacks (as a function with a contract); not modelled: callables for seeds | state machine invariant (costs and demands of the routes, heap entries refer to nodes of the route), measure for termination, greedy choice by induction over the pops, and over all insertions that fit by an invariant on the completeness of the heap; wrong for strain seeds without the triangle inequality, and interrupts while a new route is started repeat or lose customers (proved with witnesses) |
| C29 | `_PeekQueue`, `get_seed_node` (all modes), the main loop of `nearest_neighbor_init` and its interrupt handler (`Model/NearestNeighbor`); without `route_improvement_callback` | `_PeekQueue` refined to a list; invariant over every reachable state (queues hold all unserved customers, records are exact); termination measure; greedy choice; witnesses for coincident customers, mode "nearest" with several routes, late interrupt. The modes "farthest" and "closest" are exchanged in the code: "farthest" takes the customer closest to the depot |
| C30 | `do_one_sweep` | state machine invariant |
| C31 | `solve_tsp_ropt` | well-founded descent over finitely many tours |
| C32 | `_force_feasible`, `_check_CL_constraints` | fold invariant |
| C33 | `_partition_to_routes_with_cost_matrix` and `route_first_cluster_second_init`, rational costs with infinity, interrupts left out | the table of a finished entry as an invariant of the i-j-k loops; optimal among partitions with two or more routes if routes grow longer; witnesses for the single route and for customers served twice |
| C34, C35 | TSPLIB matrix cursor, depot permutation | arithmetic invariant; negation for depot permutation |
| C36, C37 | solution writers and readers | token level induction; negation for the cost line |
| C38 | `_phase_one` with the TSP routine, the seed rule and the shuffle as parameters | loop invariant (records of the emerging route are right, customers are partitioned), interrupts; trace of the tries (order of the savings, the reason of each refusal); witness for a TSP routine that worsens a route |
| C39 | `_improvement_callback` acceptance logic | decision logic; negation |
| C40 | `complain_heuristic` with all of its loops (`Model/WrenHolliday`); the set of unrouted customers is a list in any order | invariant over the customers already processed; loop specifications with the best replacement so far; without a capacity the demand of a record becomes 0 (`C40_demand_lost`) |
| C41 | `get_a_problem_file_list` recursion | induction on trees; negation |
| C42 | `_phase_two`, `_routestates2solution`, `cmt_2phase_init` (shuffles and `np.argpartition` as parameters), its handler of interrupts with the points of interruption between two rounds or outside of the phases | invariant and lexicographic measure for the second phase, induction over the retries for the best solution; trace of a round; witnesses for lost customers on interrupts and the wrong n-th best route |
| C43 | `_check_lr3opt_move` as the checker of `do_3optstar_move` | the routes after a reconnection are walks along the parts; the lifted penalties are those of the walk before, the added ones those of the walk after; completeness as for C22 |
| C44 | `lr3opt_init` round by round, from any initial solution (the TSP or random initialization is a parameter); an interrupt can come after any round. Not modelled: a largest distance of zero (numpy division), an infinite second multiplier | invariant over rounds; termination by the growth of the first multiplier, or, with bounded increases, by finiteness of the solutions: once the multipliers are large a move lowers the violation or the cost at equal violation; witness of an endless run |
| C45 | `inspect_heuristic`, `single_heuristic`, `pair_heuristic`, `delete_heuristic`, `disentangle_heuristic` on lists of route records; angles are given numbers between `-pi` and `pi`, the order of the sweep a given list | each pass lowers the cost by more than the tolerance, so the fuel loops end; what is kept is an invariant over moves, from the theorems about the operators (C12-C20) and the complain procedure (C40); the refining loop inside DISENTANGLE ends by a lexicographic measure of served customers (ordered by demand) and cost |
| C46 | `wren_holliday_init` stage by stage; an interrupt can come after any number of sweeps or stages, not within one. Not modelled: the angles and the least dense direction (given), the time of an interrupt within a stage, negative seeds other than the named ones | invariant over the stages; termination with `minimize_K` by the lexicographic measure (routes in use, cost, whether the cost at the last Q-point is the present one); without it a run that comes back to a state, and the monotonicity in the fuel, refute termination; best-of loop from C04 |
| C47 | `gaskell_lambda_savings_function`, `gaskell_pi_savings_function`, `gaskell_savings_init`; the savings procedure is the model of C25 with its interruption points; an interrupt can also come before it | `Ranks`: each pair once, with its value, in the one order (the list is unique, C47_ranks_unique); the runs give a list of candidates, the answer is the first of the best (C04); merging from C25_any_order |
| C48 | `paessens_savings_function`, `paessens_savings_init` with the strategies `M1`, `M4` and lists of parameters; the local search is the model of C23 | induction over the runs; the search with operators that change single routes keeps the customers of each route (C24_inner); fuel monotonicity |
| C49 | `supression_savings_function` with its cache and its set, `suppression_savings_init` | refinement: the cache is transparent, each list is the one made from scratch with the pairs that headed the earlier lists set to zero; the set is smaller than the list in all runs, so the scan never leaves the list |
| C50 | `cawlip_savings_init`, with interrupts | C25, then C24_inner; interrupts by C26 |
| C51 | `mole_jameson_insertion_init`, the insertion with 2-opt as a callback of C28, the refinement (local search and redistribution), the configurations of each criterion, interrupts at the four kinds of moments | the callback keeps the contract of C28_callback; the refinement ends since an accepted redistribution removes a route, and the local search by C24; the choice among the runs as for C47. The step that redistributes a route is shown to do nothing without `minimize_K`. Distances that are not a metric are not covered |
| C52 | `do_one_sweep` and `sweep_init` with the callback, `gillet_miller_init`, `produce_nn_list`; the order of the sweep and the numbers that choose the customer to remove are given | invariant of the loop with the skipped customers; the place of the last exchange moves on round the sweep, which bounds the number of iterations; equality with the plain sweep when a limit is missing |
| C53 | `route_end_interchange`, `nearest_neighbor_init` with this callback and one route at a time, `_calculate_penalty`, `_calculate_route_demand_statistics`, `tyagi_init`; the TSP routine is given, the standard deviation is replaced by the variance (`Model/Tyagi`) | queues hold every free customer, also after a customer is given back; a measure that drops with every stored group; the callback as a decision over all places; the loop over the candidates as an argmax |
| C54 | `mbsa_init` with its default callbacks, `_mmp_solve`, `_calculate_savings`, `_calculate_secondary_criteria`, `_geedy_merge`; the solver of the integer program is given by its contract, so is the TSP routine; sets are sorted lists (`Model/Matching`) | an exchange argument: an optimal choice holds an entry of the largest weight; the list of savings has one true entry for each pair of routes through all renumberings; the number of routes drops; references of the handler lead to a set in fewer steps than there are references |
| C55 | `petal_init`, `_solve_set_covering` with its constraints, `_decision_variables_to_petals`, `_generate_overconstrained_petals`; the solver is any function of the number of the call and the programme with a contract (`SolverRight`), the relaxed programme may have any answer; the generator of relaxed petals is given by its contract (C57 for the one of the code); an interrupt can come from the solver in any call or from the user before or after a solution is stored (`Model/Petal`). Not modelled: predefined petals, floating point values of the variables (exact truth values) | invariant of the loop: each forbidden choice that is a cover costs no less than the best solution, and the solver's optimality carries this to all choices; the forbidden choices are different lists over a finite set, which bounds the iterations |
| C56 | `_remove_multiserved` | the positions of later visits stay right after each deletion (invariant over the list of customers); refinement to the greedy rule `KeepCheapestAll` |
| C57 | `_generate_solution_relaxation_petals`, `_regain_feasibility` | weights 2^(n - position) of the stack entries fall with every visit (termination); each group by the contract of the redistribution (C20) and a count of the depots; every set of customers is reached by induction over its prefixes |
| C58 | `gap_init`, `_solve_gap`, `_decision_variables_to_assignments`; the solver is any function of the number of the call and the programme with a contract (`GapRight`), which may run out of time, be interrupted or give up at any call; the seed points are any function of the number of vehicles and the trial (their distances to the nodes), or raise. Not modelled: the four methods for the seed points, floating point values of the variables, negative limits | invariant of the loops (the best of all solutions found); a measure over trial, added vehicles and tries (end); the constraints are equivalent to a packing into the vehicles, and `ceil` of the total demand is a lower bound (fewest routes) |
| C59 | `read_and_solve_a_problem` after the reading and `print_solution_statistics`; the algorithm is any function from the number of the run to its outcome (solution, none, interrupt with or without solution, exception). Not modelled: times, the wording; the table of the routes is in C85 | invariant of the loop (the best is the first best of the normal forms so far); the verdicts by C09 |
| C60 | the two loops of `main` of `VeRyPy.py` with normalization, quality, post-optimization, both outputs, the dictionaries and the table; each call of an algorithm has any outcome. Not modelled: times, the VRPH format, the order of the rows | the loops as one loop over the tasks, induction over the tasks; the local search with C23_generic and its own invariant (each route keeps its customers and gets no longer); the service time adds to the cost of a route what depends on its number of customers only |
| C61 | `algo_name_aliases`, `get_algorithms` of `verypy/__init__.py` and the choice of the heuristics in `main` of `VeRyPy.py`; a heuristic stands for its tuple of functions. Simplified: lower case of ASCII letters, the imports of the modules succeed | induction over the names; the table of the 93 names is finite, so what each of its entries selects is computed by the kernel, for all names by the lookup |
| C62 | the wrappers `get_snn_algorithm`, `get_pnn_algorithm`, `get_si_algorithm`, `get_pi_algorithm` of `nearest_neighbor.py` and `cheapest_insertion.py`. Simplified: no interrupts in the wrappers | the results C28, C29 for each number of routes at once; induction over the numbers tried for the cheapest; the number of routes never falls in the insertion |
| C63 | `call_init` of all the modules of `classic_heuristics` with the defaults of the functions they call, as one function of the heuristic and the options. The heuristics that call the integer programming solver are a parameter there and modelled in `Model/CallSolver` (with the seed points of the method `cones`); no interrupts but that of Wren and Holliday | case by case from C25, C27, C30, C33, C42, C44, C46-C53, C62, and C54, C55, C57, C58, C68 for the three with the solver: their hypotheses follow from those of one instance |
| C64 | the models of C59, C60 and C63 together | the normal form and the post-optimization keep a solution complete and feasible; induction over the tasks |
| C65 | `write_TSPLIB_file` as a function to the text of the file and `read_TSPLIB_CVRP`, `read_TSBLIB_additional_constraints` as functions of the text: lines, fields, sections, numbers; printing and reading of floats are parameters with a contract (`Numbers`), as are the distances from coordinates (`TsEnv`). Not modelled: opening files, line ends other than `\n`, `int` of texts with underscores | the lines of the text are those that were written; each section of the file leads the reader from one known state to the next (induction over the rows and the demands); the matrix by C34 |
| C66 | `read_TSBLIB_additional_constraints` on texts made of lines (`CField.Line`: a field in any form, or a line that mentions no field); sections of service times (`ServiceLine`) | each line changes the state as its field says (the substring tests decided by the words of the line), induction over the lines; an invariant for the section |
| C67 | `read_TSPLIB_CVRP` on files with coordinates (`HField.Line`, `CoordLine`, `DemandLine`); reading numbers, the distances from coordinates and the conversion of geographic coordinates are parameters | as C65: each part of the file leads the reader from one known state to the next; the permutation for another depot by C35 |
| C68 | `_sweep_seed_points`, `_large_demand_seed_points`; the polar coordinates of the customers, pi, the functions of angles and the square root are parameters | invariant of the loop over the cones: the full groups and the group at work hold exactly what was seen, full groups lie within the tolerance of the share; a round trip can begin anywhere; then C58 with these seed points |
| C69 | `calculate_D` with its kinds of distances, over the real numbers | law: the triangle inequality of the plane, of angles between points of the sphere (for the globe), kept by rounding up; an excess of at most 1 with the other roundings; witnesses on a line where the rounding breaks it |
| C70 | `natural_sort` with its keys, their comparison and the exceptions, the search of one path in `get_a_problem_file_list`; `str.lower` and the digits of other scripts are parameters | refinement: the comparison of keys decides a relation on names given by rules; the relation is a strict order because the keys are in a linear order; stable sort |
| C71 | `solve_tsp_gurobi`, `_subtour`, `_subtourelim`; the solver is any function of the number of nodes and the costs of the edges with a contract for lazy constraints (`EdgeSolved`) | invariant of the walk along the edges: what it closes is a component; counting of edges: a set of nodes breaks its constraint exactly if no edge leaves it; tours and edges correspond |
| C72 | `solve_tsp_lkh`, `solve_tsp_acotsp`, `solve_tsp_fast`; what the programs write is any list of lines with a contract (`LkhAnswer`) | induction over the lines; the cost of a closed tour does not depend on where it starts; bounds of the cut off numbers; a concrete run of the two phase heuristic that breaks the limit |
| C73 | `sol2edgeset` as a finite set | every customer has one successor and one predecessor; induction along a route from its first customer; the set of a tour is the disjoint union of those of its routes |
| C74 | the naive operators on whole solutions, each as a scan over its candidates | the candidates are the neighbours within the limits, each with its exact change; for single routes an induction over the routes of the solution |
| C75 | the naive local search with fuel | every improvement lowers the cost by more than the tolerance; the last pass improves nothing |
| C76 | the fast and the naive operators side by side | both find nothing exactly if no neighbour is better; a shorter route with the same customers keeps the limits |
| C77 | one sweep with the capacity as the only limit; the angles of points in the plane | the routes stored so far are the greedy runs of the customers passed; such runs are unique; a run around a sorted list cannot be interlaced; with a cost limit a concrete run shows a route that is no sector |
| C78 | the fast and the naive one and two point moves side by side | a move on a solution happens within a route or between two routes, by where the depots are; both kinds of operators find nothing exactly if no such neighbour is better |
| C79 | the tables of `rfcs.py` as they are at the time of an interrupt, and the routes made from them | the costs filled in so far again grow along a row, so the theorem of the three loops (C33) applies to them; a pointer that is not yet set leads to the start of the ring and the rows from there on are complete |
| C80 | `generate_CVRP` and the random problem of the command line over the real numbers; the random numbers are a parameter | the loop in closed form (induction); the distances by C69; points of a circle by the cosine of the difference of their angles |
| C81 | `cli` of `shared_cli.py` on lists of arguments; the algorithm, the reader and the random problem are parameters; what is printed is a list of events | induction over the options with the rest of the arguments; the runs by C59, the paths by C70 |
| C82 | the calls of `CallInit` (C63) on instances without the triangle inequality, the kinds of `calculate_D` of C69 | the proofs of C63 without the triangle inequality; one point moves by the bound 1 on a detour, the refinement of Mole and Jameson by the fall of the (whole) cost; a witness with three points for the customers that the nearest neighbours lose |
| C83 | `tsp_cli` of `shared_cli.py`; the words, the reading and the routine are parameters, the routines those of C31, C71 and C72; what is printed is a list of events | cases over what the routine ends with; the tours by C31, C71 and C72 |
| C84 | the start of `main` of `VeRyPy.py`: the parser (one word for each option and each value), the list of the heuristics, the selection, the calls; the batch is that of C60 | the parser by induction over the parts of the command line, with any words after them; the list evaluated; the batch with C60_lines |
| C85 | the table of the routes of `print_solution_statistics`, numbers rounded to two digits as printed, both matrices given | rows by C01, verdicts by C09, sums of rounded numbers by induction; witnesses for the three failures |

Not expressed: numerical properties of floating point, haversine/GEO distances, plots and dot
export, quality guarantees of heuristics, the inside of Gurobi, the methods for the seed points of `gapvrp.py` that use `sklearn`.

## Trusted base

* The kernel of Lean 4.33.0, and the Mathlib modules that are imported one by one.
* The model itself: that the definitions in `lean/Verif/Model` say what the cited Python lines do.
  Each definition cites the file and the lines and says what it leaves out. Nothing was extracted
  or executed, the code was read.
* The specification vocabulary in `lean/Verif/Spec` and the few definitions in the namespace
  `Verif.Spec` that stand next to the theorems.
* No axioms were added, there is no `sorry`, `admit`, `native_decide`, `bv_decide`,
  `implemented_by` or `unsafe`. `decide +kernel` is used for examples and witnesses; it is
  evaluated by the kernel and adds no axiom.

Axioms each theorem of the manifest depends on (output of `#print axioms`):

<!-- axioms -->
* no axioms: C04_missing, C41_false, C61_distinct.
* `propext`: C04_decides, C08_canonical_needs_nodup.
* `Quot.sound`, `propext`: C03_sublist, C05_false_duplicate, C05_false_stale, C05_nodup, C34_unknown, C36_count_false, C37_shape, C37_lossless, C38_interrupted_false.
* `Classical.choice`, `Quot.sound`, `propext`: C01_roundtrip, C01_roundtrip_id, C01_roundtrip_without_empty, C01_roundtrip_none, C01_sol2routes, C01_routes2sol, C01_routes_roundtrip, C02_objf_sum, C02_routes_sum, C02_order, C02_direction, C02_needs_zero_diagonal, C03_without_empty_routes, C04_strict_order, C04_bestOf, C05_ordered_set_partial, C05_iteration_partial, C06_from_to_solution, C06_no_demands, C06_nodeset, C06_nodeset_padded, C06_nodeset_depots, C06_is_empty, C07_forward, C07_backward, C07_split, C07_no_demands, C08_normalize, C08_normalize_cost, C08_canonical, C08_routes, C08_record, C09_exact, C09_exact_tour, C09_out_of_range, C09_no_depot, C10_tour, C10_depot_ends, C10_rotation, C10_routes, C10_encodings_agree, C11_charge, C11_service_time_partial, C11_false_odd, C11_false_fractional, C11_zero_raises, C12_two_opt, C12_same_nodes, C13_three_opt, C13_same_nodes, C13_two_opt_optimal, C14_sound, C14_relocate, C14_same_nodes, C15_exchange, C15_same_nodes, C15_needs_distinct, C16_one_point, C16_conserves, C16_feasible, C16_feasible_rounded, C16_needs_triangle, C17_two_point, C17_conserves, C18_two_opt_star_partial, C18_conserves, C18_bookkeeping_false, C19_insert, C19_insert_node, C19_insert_route, C19_complete, C20_redistribute_partial, C20_duplicates, C20_level_error, C20_room, C21_chain, C21_conserves, C21_feasible, C22, C22_move, C22_best, C23_generic, C23_safe_rounded, C23_safe, C23_safe_star, C23_star_with_records_false, C23_redistribute_false, C24_local_optimum_rounded, C24_local_optimum, C24_local_optimum_star, C24_inner, C25_solves, C25_maximal, C25_any_order, C25_clarke_wright, C26_parallel_partial, C26_parallel_window, C26_parallel_false, C26_sequential_partial, C26_sequential_window, C26_sequential_false, C27_solves, C27_seeds, C27_maximal, C28_partial, C28_strain, C28_strain_triangle, C28_too_many, C28_greedy, C28_interrupted_partial, C28_strain_false, C28_interrupted_false, C28_least, C28_closed, C28_seeds, C28_default, C28_callback, C29_forbidden, C29_partial, C29_nearest, C29_interrupted_partial, C29_queue, C29_coincident_false, C29_nearest_false, C29_interrupted_false, C30_sweep, C30_alternatives, C30_init, C30_starts, C30_needs_limit, C31_ropt, C31_ropt_closed, C31_ropt_shuffle, C31_shuffle_closed, C31_named, C32_check_sound, C32_check_complete, C32_force, C32_force_keeps, C33_partial, C33_exact_partial, C33_init_partial, C33_false_single, C33_false_twice, C34_symmetric, C34_count, C34_triangular, C34_full_asymmetric, C34_write_read, C34_write_read_all, C34_write_read_scaled, C35_lists, C35_matrix_partial, C35_last, C35_false, C36_false, C36_partial, C38_phase_one, C38_complete, C38_worse_false, C38_interrupted, C38_choice, C38_full, C39_exchange, C39_needs_both, C39_partial, C39_two_partial, C39_pays, C39_false, C40_conserves, C40_no_improvement, C40_single, C40_demand_lost, C41_times, C41_once_partial, C42_phase_two, C42_interrupted_partial, C42_init, C42_retries, C42_no_retries, C42_nth_false, C42_interrupted_false, C42_round, C42_passed_on, C42_lost_false, C43, C43_best, C44_start, C44, C44_ends_partial, C44_optimal, C44_post, C44_no_repeat, C44_endless, C44_random_partial, C45_inspect, C45_single, C45_pair, C45_delete_partial, C45_disentangle_partial, C45_delete_false, C45_disentangle_false, C46_endless, C46_endless_single, C46_first, C46_nothing, C46_second, C46, C46_ends_partial, C46_other, C46_worse_false, C46_converged_false, C46_single_false, C47_ranks, C47_ranks_unique, C47, C47_other, C47_interrupted_partial, C47_swallowed, C47_gap_false, C48_ranks, C48, C48_clarke_wright, C48_interrupted_partial, C48_swallowed_false, C49_partial, C49_progress, C49_clarke_wright, C49_interrupted_partial, C49_swallowed, C49_single_false, C50_partial, C50_star_false, C50_interrupted_partial, C50_interrupted_false, C51, C51_criteria, C51_two_opt, C51_all_configurations, C51_all, C51_swallowed, C51_interrupted_partial, C51_other, C51_no_customers, C51_redistribution, C51_interrupted_false, C52_neighbours, C52_sweep, C52_sweep_ends, C52_answers, C52_ends, C52_shortest, C52_plain, C52_no_points, C52_overload, C53_grouping, C53_interchange, C53_round, C53_choice, C53_partial, C53_single_customer, C53_no_customers, C53_unknown, C53_penalty_false, C53_best_false, C53_zero_distance_false, C53_seed_false, C54_greedy, C54_partial, C54_few_customers, C54_one_route_false, C54_endless, C54_interrupted_partial, C54_matching_false, C54_endless_false, C54_interrupted_false, C54_ties, C54_handler_order, C55_choice, C55_answer_partial, C55_best, C55_ends_partial, C55_endless_false, C55_single_false, C55_timeout_false, C55_interrupt_false, C55_vehicle_false, C56_multiserved, C56_cost, C57_groups_partial, C57_found, C57_discard, C57_petals, C57_answer_partial, C57_even_false, C57_missed_false, C58_answer_partial, C58_given_most, C58_ends, C58_no_error_partial, C58_no_error_increase, C58_service_time, C58_last_seed, C58_given_found, C58_least_partial, C58_found_partial, C58_least_false, C58_found_false, C58_given_false, C58_no_error_false, C58_answer_false, C59_best, C59_interrupted, C59_none_raises, C59_failed_raises, C59_interrupted_false, C60_lines, C60_full_partial, C60_table_partial, C60_post, C60_round_raises, C60_capacity_raises, C60_table_false, C60_interrupt_false, C60_names_false, C61_each, C61_case, C61_name, C61_abbreviation, C61_names_partial, C61_all, C61_solver, C61_forbid_partial, C61_forbid_false, C61_displayed_false, C61_twice, C62_nearest_partial, C62_insertion, C62_insertion_false, C62_no_customers_false, C62_refused, C63_partial, C63_refused, C63_no_points, C63_no_customers_false, C63_matching_partial, C63_assignment_partial, C63_petals_partial, C63_solver_no_points, C64_best, C64_lines, C65_tsp, C65_tsp_scaled, C65_cvrp_partial, C65_exact, C65_ones, C65_limit, C65_fits, C65_selection_raises, C65_selection_false, C65_fraction_false, C65_capacity_false, C65_scaled_limit_false, C66_fields, C66_blank_needed, C66_section_partial, C66_section_differs, C66_section_last, C66_depot_false, C66_end_false, C66_remark_false, C67_coords, C67_geo, C67_depot_partial, C67_tsp, C67_blank_lines, C67_numbers_false, C67_missing_false, C67_depot_false, C68_cones_partial, C68_cones_all, C68_no_error_partial, C68_bisect, C68_large, C68_large_raises, C68_cones_false, C68_tiny_false, C68_large_false, C69_kinds, C69_matrix, C69_triangle_partial, C69_detour, C69_plane, C69_whole, C69_positive_partial, C69_geo, C69_others, C69_metric, C69_triangle_false, C69_positive_false, C69_nint_false, C70_sorted_partial, C70_order, C70_numbers, C70_folder_partial, C70_list, C70_single, C70_paths, C70_digits_false, C70_case_false, C71_least, C71_callback, C71_solver_exists, C71_optimal, C71_routine, C71_single, C71_asymmetric_false, C72_lkh, C72_small, C72_integers, C72_error, C72_cost_false, C72_limit_false, C72_acotsp, C72_acotsp_small, C72_ants_false, C72_fast, C73_directed_partial, C73_ordered_partial, C73_flag_false, C73_routes_partial, C73_undirected_partial, C73_normalized_partial, C73_cost_partial, C73_count_partial, C73_single_false, C74_two_opt_partial, C74_two_opt_safe_partial, C74_one_point_sound_partial, C74_one_point_partial, C74_two_point_partial, C74_relocate_partial, C74_exchange_partial, C74_bound_false, C74_star_false, C74_star_partial, C75_partial, C75_pass_partial, C75_max_false, C76_two_opt, C76_relocate, C76_exchange, C77_runs_partial, C77_unique, C77_best_partial, C77_interlace_partial, C77_sector_false, C78_one_point_partial, C78_two_point_partial, C78_two_point_false, C79_partial, C79_false_first, C79_false_limits, C80_places, C80_demand, C80_total, C80_distances, C80_regular, C80_cli, C80_size_false, C80_exact_false, C81_options, C81_files, C81_random_partial, C81_usage, C81_random_false, C81_interrupt_false, C81_nothing_false, C81_value_false, C82_rounded, C82_partial, C82_lost_false, C82_search, C82_one_point, C82_chain_false, C83_usage, C83_honest, C83_ropt, C83_gurobi, C83_lkh_partial, C83_acotsp, C83_lkh_false, C83_accuracy_false, C83_single_false, C83_fast_partial, C84_options, C84_refused, C84_listing, C84_list_false, C84_lines, C84_unknown, C84_simulate, C84_simulate_false, C85_table, C85_verdicts, C85_totals_partial, C85_loads, C85_totals_false, C85_depot_false, C85_empty_false.
<!-- end axioms -->

## Which parts of the code are modelled

| file | modelled | not modelled |
|------|----------|--------------|
| `util.py` | `is_sorted`, `objf`, `totald`, `is_better_sol`, `without_empty_routes`, `sol2routes`, `routes2sol`, `natural_sort`, `OrderedDictSet`, `produce_nn_list` (its order of nodes), `sol2edgeset` | `first_valid` (raises for every input) |
| `cvrp_ops.py` | `_list_trim`, `_list_split`, `normalize_solution`, `validate_solution_feasibility`, `recalculate_objective`, `D2D_c` | `generate_missing_coordinates` |
| `cvrp_io.py` | `read_OPT_CVRP`, `as_VRPH_solution`, `as_OPT_solution`, `read_TSPLIB_CVRP`, `read_TSBLIB_additional_constraints`, `write_TSPLIB_file`, `calculate_D`, `generate_CVRP` | |
| `routedata.py` | the class except `__str__`, `__iter__`, `__getitem__` | those |
| `shared_cli.py` | `get_a_problem_file_list`, `read_and_solve_a_problem` (after the reading), `print_solution_statistics`, `cli`, `tsp_cli` | logging, tracing |
| `local_search/__init__.py` | `do_local_search` | |
| `local_search/intra_route_operators.py` | all four operators | |
| `local_search/inter_route_operators.py` | all six operators | |
| `local_search/solution_operators.py` | all, see C22 | the visualizer hooks |
| `tsp_solvers/tsp_solver_ropt.py` | all | |
| `tsp_solvers/tsp_solver_gurobi.py` | all | the solver (a contract) |
| `tsp_solvers/tsp_solver_lkh.py`, `tsp_solver_acotsp.py`, `tsp_solver_fast.py` | all but files and processes | the programs (contracts); the text of the lines |
| `parallel_savings.py`, `sequential_savings.py` | all but the `get_*_algorithm` wrappers | |
| `cheapest_insertion.py` | all but the wrappers and the callables for seeds | |
| `mole_jameson_insertion.py` | all but the wrappers | |
| `nearest_neighbor.py` | all (the wrappers in C62, `route_improvement_callback` in C53) | |
| `sweep.py` | `_step`, `_find_earliest_previous`, `_ensure_L_feasible`, `do_one_sweep`, `sweep_init` with and without the callback for routes, the order by angles (as a relation: equal angles come in any order) | radii, the bisecting of angles; elsewhere the sweep order is a parameter |
| `gillet_miller_sweep.py` | `_improvement_callback`, `_shortest_path_through_nodes`, `gillet_miller_init` | the radii and angles (given) |
| `rfcs.py` | all but the wrappers | interrupts while the tables are filled (`RfcsInterrupt.lean`); others are not caught |
| `lr3opt.py` | all but the wrappers | |
| `cmt_2phase.py` | all but the wrappers | |
| `wren_holliday_sweep.py` | all procedures, `_get_route_phi_range`, `wren_holliday_init` | the computation of angles and of the least dense direction, the branches of the main loop for omitted customers (never taken: there are none), the command line |
| `gaskell_savings.py`, `paessens_savings.py`, `cawlip_savings.py`, `suppression_savings.py` | all but the wrappers, other strings as strategy and a cache that is switched off | those |
| `tyagi_nearest_neighbor.py`, `matchingvrp.py` | all but the wrappers | |
| `petalvrp.py` | all but the wrappers and predefined petals | the solver (a contract); the main loop takes any generator of relaxed petals that meets a contract, which the model of `_generate_solution_relaxation_petals` and `_regain_feasibility` meets (C57) |
| `gapvrp.py` | `gap_init`, `_solve_gap`, `_decision_variables_to_assignments`, `_sweep_seed_points`, `_large_demand_seed_points` | the solver (a contract); the methods for the seed points with `sklearn` (any function); the wrapper |
| `VeRyPy.py` | all of `main`, `_build_algorithm_help` | shortened and joined options of `argparse`, pickled instances, files that cannot be read, verbosity, times |
| `local_search/naive_implementations.py` | all operators, `_apply_as_intra_route`, `do_naive_local_search` | `do_naive_3optstar_move`, which only raises `NotImplementedError`; output |
| `local_search/inter_route_3opt_operators.py` | | all: it says that it is incomplete and is not used |
| `visualizers`, `VeRyPyGui.py` | | all |

## How the theorems were tested against wrong programs

`seeded/LOG.jsonl` has a line for each edit of the model. `failed` names the theorems that no longer build or whose proof, followed by
names, uses a lemma that no longer builds; `failed_lemmas` names the declarations where the errors are. A single entry may thus name
theorems that would build with another proof of the lemma. `tightened` names theorems that were changed or added because of
the edit; the `note` says whether the edit was run again after that, and `rerun` has the result, for the modules of these theorems only. Edits with
`survived` and nothing under `tightened` either do not change what the program does, or change something no claim is made about; the `note` says which.

## Where the code does not do what it says

Proved with a witness (the theorem is in parentheses):

* Tyagi: the bounds for the best exchange are never updated, so the last improving place is used instead of the best
  (C53_best_false). A customer that is given back is pushed to the front of the lists, so that the next group need not
  start with the nearest free customer (C53_seed_false). "min_penalty" selects the largest value, and the value is
  `C - demand * cost` where the documentation has `(C - demand) * cost` (C53_penalty_false). With a capacity, a single
  customer raises an `AttributeError` with the default options (C53_single_customer) and no customer a `ValueError`;
  without a capacity the latter gives `None` (C53_no_customers). An unknown `select_grouping` is refused only with a
  capacity (C53_unknown). A rounded distance 0 between customers can leave one out (C53_zero_distance_false).
* Matching based savings: the integer program asks only that each *first* number of a pair is in one chosen pair, so it
  does not solve a matching problem, and the pair of the largest saving is joined, which a largest matching need not
  contain (C54_matching_false). `zip(*savings)` raises a `ValueError` when one route is left, so instances in which all
  customers fit into one route fail (C54_one_route_false, C54_few_customers). `continue` on a best saving below 0 repeats
  the same state for ever (C54_endless). The handler of interrupts looks routes up in the cache that were never put there
  (C54_interrupted_false); its branch for a joint route that is not in the cache cannot be reached.
* Petal algorithm: with `minimize_K` the number of vehicles is raised for ever once all choices of petals are forbidden,
  e.g. for one customer (C55_endless_false); `required_iterations=1` (the `single` mode) can return a solution without
  some customers (C55_single_false); the error of a solver that runs out of time discards the best solution
  (C55_timeout_false); an interrupt of the solver in the set of all petals ends in a normal return (C55_interrupt_false).
  `len(routes_with_idxs[0])>K` compares the length of a pair, which is 2, with `K`; with `K=1` an interrupt of the run with
  all petals hands over the unrepaired answer of the run before, which can serve a customer twice (C55_vehicle_false).
* Relaxed petals: the routes after a replacement can cost more than before if nothing is saved by the move itself, as a
  bound of zero is taken for none by the redistribution (C57_even_false). What a discarded customer saves on its old route
  is not counted, so improvements are missed (C57_missed_false).
* Heuristic of Fisher and Jaikumar: the rows of distances are used one place off, so the first vehicle has the depot for its
  seed point and the last seed point is never used (C58_last_seed). With a limit on the route cost the least number of
  vehicles is overestimated (C58_least_false) and solutions are missed (C58_found_false). A given number of
  vehicles need not be used (C58_given_false). Without adaptive weights a route that is too long raises an exception, since the
  message names a variable that is not bound (C58_no_error_false); under `python -O` it does not. A time-out of the
  solver can lose the solution found before (C58_answer_false).
* C59: without a solution `read_and_solve_a_problem` raises a TypeError (C59_none_raises), an exception in one run loses the
  solutions of the runs before (C59_failed_raises), and after an interrupt the function does not return the
  solution (C59_interrupted_false).
* C84: `VeRyPy.py -l` ends with the status of a failure, and `main(["-l"])` is refused for want of a path (C84_list_false). `--simulate`
  with the long output and several heuristics ends in a KeyError (C84_simulate_false).
* C60: `-D ROUND` always raises (C60_round_raises; a matrix of a single node apart). The long output raises a TypeError for instances without a
  capacity, because the tightness `None` is formatted as a number (C60_capacity_raises). If no algorithm solves an instance
  that has been reached, or the user interrupts before its first solution, the table of all results is lost with a KeyError (C60_table_false,
  C60_interrupt_false). Files with the same name in different directories overwrite each other's results (C60_names_false).
* C61: the names to exclude are not put in lower case as those to select are, and an unknown one is a KeyError; to exclude "all"
  or "classical" has no effect (C61_forbid_false). The names displayed for twelve of the heuristics are not known to the lookup, and
  "MJ76-SI", listed with the names of the heuristic of Mole and Jameson, selects the insertion without their improvement (C61_displayed_false).
* C62: the parallel insertion is not compared with the sequential one and can be worse (C62_insertion_false), whereas the parallel nearest
  neighbours are. Without customers the wrappers end with an AttributeError or IndexError (C62_no_customers_false).
* `OrderedDictSet`: adding an element twice duplicates it in the index, and the index goes stale
  after indexing an empty set (C05_false_duplicate, C05_false_stale).
* `D2D_c`: odd integer service times are rounded (C11_false_odd), fractional ones are lost in
  integer matrices (C11_false_fractional).
* `do_2optstar_move`: both returned records carry the cost and demand of the first route
  (C18_bookkeeping_false).
* `do_redistribute_move`: without the triangle inequality and with a bound a customer can be
  duplicated (C20_duplicates).
* savings heuristics: an interrupt between two particular lines hands out a customer twice
  (C26_parallel_false, C26_sequential_false).
* `cheapest_insertion_init`: interrupts and strain seeds (C28_interrupted_false,
  C28_strain_false), more routes than customers is an IndexError (C28_too_many).
* `nearest_neighbor_init`: a customer at the place of another can be left out
  (C29_coincident_false), the seed mode "nearest" with several routes ends with a TypeError
  (C29_nearest_false), so does an interrupt after the last customer (C29_interrupted_false).
* `route_first_cluster_second_init`: one single route is never considered (C33_false_single);
  customers twice for some routines (C33_false_twice).
* `read_TSPLIB_CVRP`: the last row and column are not permuted with the depot (C35_false).
* `as_OPT_solution` and `read_OPT_CVRP`: what is written cannot be read (C36_false).
* Gillett-Miller improvement: never accepted with one limit only (C39_false), so with the default `L=None` the heuristic
  is the plain sweep (C52_plain). A customer over the capacity raises a `ValueError` from an empty argmin (C52_overload),
  where the plain sweep does not end. Termination with a routine whose tours get dearer when a customer is left out is
  not proved; no run that does not end was found.
* `get_a_problem_file_list`: folders are searched more than once (C41_false).
* `natural_sort`: digits of other scripts and superscripts in names can raise a TypeError or a ValueError
  (C70_digits_false). In a folder, files with endings in upper case and hidden ones are passed over without a message,
  though they are accepted if they are named (C70_case_false).
* `cmt_2phase_init`: interrupts in the middle of a round lose customers (C42_interrupted_false, C42_lost_false),
  the n-th best route is not the one tried (C42_nth_false).
* `delete_heuristic` (Wren and Holliday): compares the costs of the insertions without the cost of the route
  that is saved, so it need not choose the best operation and may raise the total cost (C45_delete_false). Without
  `minimize_K` the heuristic may so return a solution worse than that of its only sweep (C46_worse_false).
  It may also never return: DELETE makes the solution worse, the others make it better again, and on an instance with
  five customers the loop comes back to the same state for ever, with the defaults of the command line (C46_endless).
  As the loop is not told of what DISENTANGLE changes, with full convergence it may stop at a solution that SINGLE improves (C46_converged_false).
* `disentangle_heuristic`: always reports that nothing was improved; takes one route in place of two whatever it costs
  (C45_disentangle_false).
* `wren_holliday_init`: the set of the omitted customers is always empty, so the branches for INSERT and COMPLAIN are
  never taken. With one customer the start position 1 of the command line raises an `IndexError` (C46_single_false);
  a seed that is not an integer gives `None` (C46_other).
* `gaskell_savings_init`: the loop over the savings ends at the first negative saving of Clarke and Wright, though the list
  is in another order, so without the triangle inequality merges that pay are missed (C47_gap_false).
* Interrupts that carry no solution (before the savings procedure has one, or in the local search) are swallowed by
  `gaskell_savings_init`, `paessens_savings_init` and `suppression_savings_init`: they go on, and may return `None`
  (C47_swallowed, C48_swallowed_false, C49_swallowed).
* `suppression_savings_init`: returns `None` for a single customer (C49_single_false); once all that is left to be saved is
  zero the same pair is suppressed again in each run (C49_progress).
* `cawlip_savings_init`: documented as a 2-opt* search between all routes, only single routes are searched (C50_star_false). There is no handler of interrupts, so that one of the improvement carries no solution (C50_interrupted_false).
* `mole_jameson_insertion_init`: without `minimize_K` the redistribution of the smallest route is judged by the insertions
  alone, without the route that is saved, so on a metric it is never made (C51_redistribution); interrupts without a
  solution are swallowed (C51_swallowed); an interrupt while a customer is tried hands out a route beyond the limit
  (C51_interrupted_false); an unknown criterion gives `None` (C51_other). The empty route appended for the local search is
  lost, as routes are made from the non-empty ones only.
* `do_one_sweep` with a limit on the route cost: a route need not serve neighbours; the customer after those taken out of the last route is stepped over (C77_sector_false).
* `do_2point_move` does not allow for the tolerance of the limit on the route cost, unlike `do_1point_move`, the naive moves and the checks of solutions (C78_two_point_false).
* `rfcs.py` handles an interrupt with a variable that has no value before the first call of the TSP routine has returned, so that an early interrupt ends with an `UnboundLocalError` (C79_false_first). Until the table is nearly full there is no closed chain of routes in it, and the interrupt then carries one route of all the customers that ignores the limits (C79_partial, C79_false_limits).
* `lr3opt_init`: never returns with only `L` set and a customer that breaks it (C44_endless).
* `write_TSPLIB_file`: the selection of nodes is applied to the distances but not to the demands (C65_selection_false,
  C65_selection_raises); fractions of demands, capacity and limit are cut off (C65_fraction_false); without a capacity the
  number of nodes is written (C65_capacity_false); the limit is not scaled as the distances are (C65_scaled_limit_false).
* `read_TSBLIB_additional_constraints`: the test that the node is not the depot compares a string with a number and is always
  true, so the service time of the depot counts (C66_depot_false); after a section of service times any line that is not of
  two words raises, also the end mark (C66_section_last, C66_end_false); a field needs a blank after the colon
  (C66_blank_needed); a remark that mentions a field is taken for it (C66_remark_false).
* `read_TSPLIB_CVRP`: the numbers of the nodes are ignored (C67_numbers_false), missing demands are not noticed
  (C67_missing_false), and the distances do not follow another depot in the last row and column (C67_depot_false, C35).
* `_sweep_seed_points`: with a customer above the share of a vehicle the last seed points can stay at the origin of the
  coordinates, wherever the depot is (C68_cones_false); tiny demands make more groups than vehicles and an `IndexError`
  (C68_tiny_false).
* `_large_demand_seed_points`: from the third trial on a mask is indexed by a tuple of several numbers, an `IndexError`
  (C68_large_raises, C68_large_false).
* `cli`: a random problem is followed by the usage, as for a wrong call (C81_random_false); its interrupt is not passed on
  (C81_interrupt_false), and without a solution it ends in a TypeError (C81_nothing_false); a value that looks like an option is
  taken for one as well (C81_value_false).
* The default kind of distances, EUC_2D, rounds distances below 1/2 to 0. The nearest neighbour heuristics (sn, pn, ty) take a zero for
  a customer that is already served and return a solution without that customer (C82_lost_false). The chain move takes for granted that a
  route does not become longer without a customer; on rounded distances the search with it can break the length limit (C82_chain_false).
* `tsp_cli`: it asserts that the cost reported by the routine is that of the tour, which does not hold for LKH with distances that are no
  whole numbers (C83_lkh_false, C83_accuracy_false); a file with one node ends in a TypeError with Gurobi (C83_single_false).
* `generate_CVRP`: the field `size` is the number of customers, one less than the number of places, which it is for a problem
  from a file (C80_size_false); `cli` names the distances of a random problem "EXACT_2D", they are rounded (C80_exact_false).
* `calculate_D`: rounding to the nearest (EUC_2D) and down (FLOOR_2D) breaks the triangle inequality, by at most 1
  (C69_triangle_false, C69_detour), and can put different places at distance 0 (C69_positive_false); on the globe two
  customers at the same place are at distance 1 (C69_geo).
* cvrp_io.py 93: `np.round` takes halves to even numbers, the file format asks for `EUC_2D` to round them up
  (C69_nint_false).
* `solve_tsp_gurobi`: only the entries below the diagonal are read (C71_asymmetric_false); for a single node it returns `None` (C71_single).
* `solve_tsp_lkh`: for up to three nodes each distance is cut off to an integer (C72_cost_false), which makes the two
  phase heuristic, with its default routine, break the limit of the route length (C72_limit_false); for more nodes the
  cost is too low by up to one unit of the accuracy for each step (C72_error).
* `solve_tsp_acotsp`: with ants a variable has no value (C72_ants_false).
* `do_naive_2optstar_move` calls a function that does not exist and so raises `NameError` when it finds something
  (C74_star_false). `do_naive_relocate_move` and `do_naive_exchange_move` ignore `best_delta` (C74_bound_false). The greatest
  number of iterations of `do_naive_local_search` leaves only the inner loop (C75_max_false).
* `sol2edgeset`: the flag for symmetric problems works the wrong way round (C73_flag_false); with undirected edges a route
  with one customer has one edge (C73_single_false).
* `first_valid`: `next` takes no keyword argument, every call raises a `TypeError`. It is not called anywhere, and not
  modelled.

Seen while reading, not modelled: `first_valid` always raises a TypeError; `sol2edgeset` has its
`symmetric` flag inverted.
