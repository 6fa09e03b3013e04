{
 "claims": [
  {
   "property": "C01",
   "status": "proved",
   "theorems": [
    "Verif.C01_roundtrip",
    "Verif.C01_roundtrip_id",
    "Verif.C01_roundtrip_without_empty",
    "Verif.C01_roundtrip_none",
    "Verif.C01_sol2routes",
    "Verif.C01_routes2sol",
    "Verif.C01_routes_roundtrip"
   ],
   "note": ""
  },
  {
   "property": "C02",
   "status": "proved",
   "theorems": [
    "Verif.C02_objf_sum",
    "Verif.C02_routes_sum",
    "Verif.C02_order",
    "Verif.C02_direction",
    "Verif.C02_needs_zero_diagonal"
   ],
   "note": ""
  },
  {
   "property": "C03",
   "status": "proved",
   "theorems": [
    "Verif.C03_without_empty_routes",
    "Verif.C03_sublist"
   ],
   "note": ""
  },
  {
   "property": "C04",
   "status": "proved",
   "theorems": [
    "Verif.C04_decides",
    "Verif.C04_missing",
    "Verif.C04_strict_order",
    "Verif.C04_bestOf"
   ],
   "note": ""
  },
  {
   "property": "C05",
   "status": "partial",
   "theorems": [
    "Verif.C05_false_duplicate",
    "Verif.C05_false_stale",
    "Verif.C05_ordered_set_partial",
    "Verif.C05_iteration_partial",
    "Verif.C05_nodup"
   ],
   "note": "The documented claim is false (C05_false_duplicate, C05_false_stale). Proved for all histories that never re-add a present element and never index the empty set, and for all histories for everything except indexing."
  },
  {
   "property": "C06",
   "status": "proved",
   "theorems": [
    "Verif.C06_from_to_solution",
    "Verif.C06_no_demands",
    "Verif.C06_nodeset",
    "Verif.C06_nodeset_padded",
    "Verif.C06_nodeset_depots",
    "Verif.C06_is_empty"
   ],
   "note": ""
  },
  {
   "property": "C07",
   "status": "proved",
   "theorems": [
    "Verif.C07_forward",
    "Verif.C07_backward",
    "Verif.C07_split",
    "Verif.C07_no_demands"
   ],
   "note": ""
  },
  {
   "property": "C08",
   "status": "proved",
   "theorems": [
    "Verif.C08_normalize",
    "Verif.C08_normalize_cost",
    "Verif.C08_canonical",
    "Verif.C08_canonical_needs_nodup",
    "Verif.C08_routes",
    "Verif.C08_record"
   ],
   "note": ""
  },
  {
   "property": "C09",
   "status": "proved",
   "theorems": [
    "Verif.C09_exact",
    "Verif.C09_exact_tour",
    "Verif.C09_out_of_range",
    "Verif.C09_no_depot"
   ],
   "note": ""
  },
  {
   "property": "C10",
   "status": "proved",
   "theorems": [
    "Verif.C10_tour",
    "Verif.C10_depot_ends",
    "Verif.C10_rotation",
    "Verif.C10_routes",
    "Verif.C10_encodings_agree"
   ],
   "note": ""
  },
  {
   "property": "C11",
   "status": "partial",
   "theorems": [
    "Verif.C11_charge",
    "Verif.C11_service_time_partial",
    "Verif.C11_false_odd",
    "Verif.C11_false_fractional",
    "Verif.C11_zero_raises"
   ],
   "note": "The claim is false for odd or fractional service times (C11_false_odd, C11_false_fractional). Proved for even integer service times; C11_charge gives the exact charge for every service time."
  },
  {
   "property": "C12",
   "status": "proved",
   "theorems": [
    "Verif.C12_two_opt",
    "Verif.C12_same_nodes"
   ],
   "note": ""
  },
  {
   "property": "C13",
   "status": "proved",
   "theorems": [
    "Verif.C13_three_opt",
    "Verif.C13_same_nodes",
    "Verif.C13_two_opt_optimal"
   ],
   "note": ""
  },
  {
   "property": "C14",
   "status": "proved",
   "theorems": [
    "Verif.C14_sound",
    "Verif.C14_relocate",
    "Verif.C14_same_nodes"
   ],
   "note": ""
  },
  {
   "property": "C15",
   "status": "proved",
   "theorems": [
    "Verif.C15_exchange",
    "Verif.C15_same_nodes",
    "Verif.C15_needs_distinct"
   ],
   "note": ""
  },
  {
   "property": "C16",
   "status": "proved",
   "theorems": [
    "Verif.C16_one_point",
    "Verif.C16_conserves",
    "Verif.C16_feasible",
    "Verif.C16_feasible_rounded",
    "Verif.C16_needs_triangle"
   ],
   "note": "C16_feasible_rounded: the giving route keeps the limits also where the triangle inequality fails by rounding."
  },
  {
   "property": "C17",
   "status": "proved",
   "theorems": [
    "Verif.C17_two_point",
    "Verif.C17_conserves"
   ],
   "note": ""
  },
  {
   "property": "C18",
   "status": "partial",
   "theorems": [
    "Verif.C18_two_opt_star_partial",
    "Verif.C18_conserves",
    "Verif.C18_bookkeeping_false"
   ],
   "note": "The bookkeeping part is false (C18_bookkeeping_false: both returned records carry the cost and demand meant for the first). Everything else is proved: conservation, constraints, exact delta, completeness, best accept."
  },
  {
   "property": "C19",
   "status": "proved",
   "theorems": [
    "Verif.C19_insert",
    "Verif.C19_insert_node",
    "Verif.C19_insert_route",
    "Verif.C19_complete"
   ],
   "note": ""
  },
  {
   "property": "C20",
   "status": "partial",
   "theorems": [
    "Verif.C20_redistribute_partial",
    "Verif.C20_duplicates",
    "Verif.C20_level_error",
    "Verif.C20_room"
   ],
   "note": "False without the triangle inequality when a bound is given (C20_duplicates). Proved under the triangle inequality for all levels and bounds, and for every matrix without a bound at level 0. C20_room: without room for its customers a route is not redistributed."
  },
  {
   "property": "C21",
   "status": "proved",
   "theorems": [
    "Verif.C21_chain",
    "Verif.C21_conserves",
    "Verif.C21_feasible"
   ],
   "note": ""
  },
  {
   "property": "C22",
   "status": "proved",
   "theorems": [
    "Verif.C22",
    "Verif.C22_move",
    "Verif.C22_best"
   ],
   "note": ""
  },
  {
   "property": "C23",
   "status": "proved",
   "theorems": [
    "Verif.C23_generic",
    "Verif.C23_safe_rounded",
    "Verif.C23_safe",
    "Verif.C23_safe_star",
    "Verif.C23_star_with_records_false",
    "Verif.C23_redistribute_false"
   ],
   "note": "C23_generic covers every operator list meeting the contract, C23_safe and C23_safe_star the operators of the code that meet it. C23_star_with_records_false and C23_redistribute_false show that 2-opt* mixed with record-trusting operators, and route redistribution, break the conclusion. C23_safe_rounded: the operators but the chain move also where the triangle inequality fails by rounding."
  },
  {
   "property": "C24",
   "status": "proved",
   "theorems": [
    "Verif.C24_local_optimum_rounded",
    "Verif.C24_local_optimum",
    "Verif.C24_local_optimum_star",
    "Verif.C24_inner"
   ],
   "note": "C24_local_optimum_rounded: also where the triangle inequality fails by rounding, but for the chain move."
  },
  {
   "property": "C25",
   "status": "proved",
   "theorems": [
    "Verif.C25_solves",
    "Verif.C25_maximal",
    "Verif.C25_any_order",
    "Verif.C25_clarke_wright"
   ],
   "note": ""
  },
  {
   "property": "C26",
   "status": "partial",
   "theorems": [
    "Verif.C26_parallel_partial",
    "Verif.C26_parallel_window",
    "Verif.C26_parallel_false",
    "Verif.C26_sequential_partial",
    "Verif.C26_sequential_window",
    "Verif.C26_sequential_false"
   ],
   "note": "The full claim is false: an interrupt between lines 172 and 173 of parallel_savings.py, or right after lines 123, 177, 179 or 198 of sequential_savings.py, hands out a solution with a customer twice (C26_parallel_false, C26_sequential_false; the window theorems show this happens for every instance). Proved for every other point of interruption. For the first phase of cmt_2phase.py see C38_interrupted, for its handler of interrupts C42_passed_on and C42_lost_false."
  },
  {
   "property": "C27",
   "status": "proved",
   "theorems": [
    "Verif.C27_solves",
    "Verif.C27_seeds",
    "Verif.C27_maximal"
   ],
   "note": "C27_seeds shows which seed rules offer every customer; the 'savings' rule raises ValueError for a single customer."
  },
  {
   "property": "C28",
   "status": "partial",
   "theorems": [
    "Verif.C28_partial",
    "Verif.C28_strain",
    "Verif.C28_strain_triangle",
    "Verif.C28_too_many",
    "Verif.C28_greedy",
    "Verif.C28_interrupted_partial",
    "Verif.C28_strain_false",
    "Verif.C28_interrupted_false",
    "Verif.C28_least",
    "Verif.C28_closed",
    "Verif.C28_seeds",
    "Verif.C28_default",
    "Verif.C28_callback"
   ],
   "note": "C28_partial: for the seeds farthest and closest, any number of routes at once, any strain function and any heap order the result is complete, keeps the limits and (unless minimize_K) costs no more than one route per customer. C28_strain: for the strain seeds it is complete; with the triangle inequality and the built-in criterion all claims hold (C28_strain_triangle), without it they fail (C28_strain_false). C28_greedy: the least insertion that can be made is made. C28_least: with the triangle inequality and non-negative demands it is the least of all insertions of all unrouted customers that fit, and a route is closed only when nothing fits; C28_closed: no customer left fits in a closed route; C28_seeds: each new route starts with the farthest / closest unrouted customer. C28_too_many: more routes than customers is an IndexError. C28_interrupted_partial / C28_interrupted_false: which interrupts give a complete solution. C28_callback, C28_default: with any insertion callback that keeps its contract, of which the default one is an instance. Missing: callables for the seeds."
  },
  {
   "property": "C29",
   "status": "partial",
   "theorems": [
    "Verif.C29_forbidden",
    "Verif.C29_partial",
    "Verif.C29_nearest",
    "Verif.C29_interrupted_partial",
    "Verif.C29_queue",
    "Verif.C29_coincident_false",
    "Verif.C29_nearest_false",
    "Verif.C29_interrupted_false"
   ],
   "note": "The full claim is false: with customers at the same place one can be left out (C29_coincident_false), the seed mode \"nearest\" with several routes at once can end with a TypeError (C29_nearest_false), and an interrupt after the last customer was routed raises a TypeError (C29_interrupted_false). Proved for customers at distinct places, for the modes \"farthest\" and \"closest\" with any number of routes at once and for \"nearest\" with one; the optional callback is left out here (C53 covers it for the callback of Tyagi)."
  },
  {
   "property": "C30",
   "status": "proved",
   "theorems": [
    "Verif.C30_sweep",
    "Verif.C30_alternatives",
    "Verif.C30_init",
    "Verif.C30_starts",
    "Verif.C30_needs_limit"
   ],
   "note": ""
  },
  {
   "property": "C31",
   "status": "proved",
   "theorems": [
    "Verif.C31_ropt",
    "Verif.C31_ropt_closed",
    "Verif.C31_ropt_shuffle",
    "Verif.C31_shuffle_closed",
    "Verif.C31_named"
   ],
   "note": ""
  },
  {
   "property": "C32",
   "status": "proved",
   "theorems": [
    "Verif.C32_check_sound",
    "Verif.C32_check_complete",
    "Verif.C32_force",
    "Verif.C32_force_keeps"
   ],
   "note": ""
  },
  {
   "property": "C33",
   "status": "partial",
   "theorems": [
    "Verif.C33_partial",
    "Verif.C33_exact_partial",
    "Verif.C33_init_partial",
    "Verif.C33_false_single",
    "Verif.C33_false_twice"
   ],
   "note": "The partition is complete, keeps the limits and is the cheapest one among those with two or more routes, for every routine for which adding a node does not shorten a route (an exact one under the triangle inequality, C33_exact_partial, or the given order). A partition to a single route is never considered (C33_false_single); without that monotonicity customers may be served twice (C33_false_twice)."
  },
  {
   "property": "C34",
   "status": "proved",
   "theorems": [
    "Verif.C34_symmetric",
    "Verif.C34_count",
    "Verif.C34_unknown",
    "Verif.C34_triangular",
    "Verif.C34_full_asymmetric",
    "Verif.C34_write_read",
    "Verif.C34_write_read_all",
    "Verif.C34_write_read_scaled"
   ],
   "note": "Symmetric matrices in all formats, value counts, round trip with the writer. C34_full_asymmetric shows what happens to a full matrix that is not symmetric: the upper part is silently replaced by the lower one."
  },
  {
   "property": "C35",
   "status": "partial",
   "theorems": [
    "Verif.C35_lists",
    "Verif.C35_matrix_partial",
    "Verif.C35_last",
    "Verif.C35_false"
   ],
   "note": "The claim is false (C35_false, C35_last): the last row and column of the distance matrix are not permuted because the loops stop one short. Proved for lists of demands and coordinates (C35_lists) and for the rest of the matrix (C35_matrix_partial)."
  },
  {
   "property": "C36",
   "status": "partial",
   "theorems": [
    "Verif.C36_false",
    "Verif.C36_partial",
    "Verif.C36_count_false"
   ],
   "note": "The claim is false for every solution (C36_false: the writer's cost line has three words, the reader unpacks two, so reading always raises ValueError; C36_count_false: routes are never counted). Proved for the route lines followed by a cost line of two words."
  },
  {
   "property": "C37",
   "status": "proved",
   "theorems": [
    "Verif.C37_shape",
    "Verif.C37_lossless"
   ],
   "note": ""
  },
  {
   "property": "C38",
   "status": "proved",
   "theorems": [
    "Verif.C38_phase_one",
    "Verif.C38_complete",
    "Verif.C38_worse_false",
    "Verif.C38_interrupted",
    "Verif.C38_interrupted_false",
    "Verif.C38_choice",
    "Verif.C38_full"
   ],
   "note": "C38_phase_one for routines that are no worse than the order given (the contract in the statement); C38_complete without that, and C38_worse_false shows that the limit is then lost. C38_interrupted(_false): interrupts between routes give a complete solution, others lose the customers of the route being built. C38_choice: the seed follows the rule, customers are tried in the order of their savings, and each one left was refused when it was tried; C38_full: without a limit on the length, no customer left would fit in a route."
  },
  {
   "property": "C39",
   "status": "partial",
   "theorems": [
    "Verif.C39_exchange",
    "Verif.C39_needs_both",
    "Verif.C39_partial",
    "Verif.C39_two_partial",
    "Verif.C39_pays",
    "Verif.C39_false"
   ],
   "note": "The claim is false (C39_false): the acceptance test needs both limits to be set, so with one of them the callback never changes a route (C39_needs_both). Proved for both limits set: the exchange of one customer for one is made (C39_partial), else the one for two (C39_two_partial), every change is a correct exchange within the limits (C39_exchange) and none makes the costs larger (C39_pays)."
  },
  {
   "property": "C40",
   "status": "proved",
   "theorems": [
    "Verif.C40_conserves",
    "Verif.C40_no_improvement",
    "Verif.C40_single",
    "Verif.C40_demand_lost"
   ],
   "note": ""
  },
  {
   "property": "C41",
   "status": "partial",
   "theorems": [
    "Verif.C41_times",
    "Verif.C41_once_partial",
    "Verif.C41_false"
   ],
   "note": "The claim is false (C41_false): a folder at depth k below the given one is searched 2^(k-1) times (C41_times). Proved for trees of depth one (C41_once_partial)."
  },
  {
   "property": "C42",
   "status": "partial",
   "theorems": [
    "Verif.C42_phase_two",
    "Verif.C42_interrupted_partial",
    "Verif.C42_init",
    "Verif.C42_retries",
    "Verif.C42_no_retries",
    "Verif.C42_nth_false",
    "Verif.C42_interrupted_false",
    "Verif.C42_round",
    "Verif.C42_passed_on",
    "Verif.C42_lost_false"
   ],
   "note": "C42_init, C42_retries, C42_phase_two: complete, feasible and the best over all phases and attempts. Not true: interrupts in the middle of a round lose customers (C42_interrupted_false; C42_interrupted_partial is the part that holds) and the n-th best route is not the one tried (C42_nth_false). With zero retries there is no solution (C42_no_retries). C42_passed_on: an interrupt between two rounds or outside of the phases, in any attempt, passes on the best solution known, complete and feasible; nothing only before the first phase of the first attempt. C42_lost_false: an interrupt within a round of the first phase loses the seed, for every instance. C42_round: the route worked on, the customers whose nearest route it is, the order of urgency, and why the others were left."
  },
  {
   "property": "C43",
   "status": "proved",
   "theorems": [
    "Verif.C43",
    "Verif.C43_best"
   ],
   "note": ""
  },
  {
   "property": "C44",
   "status": "partial",
   "theorems": [
    "Verif.C44_start",
    "Verif.C44",
    "Verif.C44_ends_partial",
    "Verif.C44_optimal",
    "Verif.C44_post",
    "Verif.C44_no_repeat",
    "Verif.C44_endless",
    "Verif.C44_random_partial"
   ],
   "note": "C44, C44_start, C44_optimal, C44_post, C44_no_repeat: as stated. Termination holds with a bound on the consecutive increases or a positive multiplier for the capacity (C44_ends_partial); it is false in general: with only L set and a customer that breaks it the heuristic never returns (C44_endless), because the second test for infinity looks at the first multiplier again. C44_random_partial: from the random initialization, whatever the order, a complete and feasible solution."
  },
  {
   "property": "C45",
   "status": "partial",
   "theorems": [
    "Verif.C45_inspect",
    "Verif.C45_single",
    "Verif.C45_pair",
    "Verif.C45_delete_partial",
    "Verif.C45_disentangle_partial",
    "Verif.C45_delete_false",
    "Verif.C45_disentangle_false"
   ],
   "note": "C45_inspect, C45_single, C45_pair, C45_delete_partial, C45_disentangle_partial: as stated, except: DELETE does not apply what improves the solution most and may raise the cost (C45_delete_false); DISENTANGLE never reports a change, and takes one route for two whatever it costs (C45_disentangle_false). Both are false of the code."
  },
  {
   "property": "C46",
   "status": "partial",
   "theorems": [
    "Verif.C46_endless",
    "Verif.C46_endless_single",
    "Verif.C46_first",
    "Verif.C46_nothing",
    "Verif.C46_second",
    "Verif.C46",
    "Verif.C46_ends_partial",
    "Verif.C46_other",
    "Verif.C46_worse_false",
    "Verif.C46_converged_false",
    "Verif.C46_single_false"
   ],
   "note": "C46, C46_first, C46_second, C46_nothing, C46_other: complete feasible solutions, best of the candidates, at every interrupt between two stages. With minimize_K the heuristic ends and is no worse than any of the sweeps (C46_ends_partial). Without it it may return a worse solution than that of its only sweep (C46_worse_false: false of the code), and it need not end at all: on an instance with five customers the loop comes back to the same state for ever (C46_endless, C46_endless_single: false of the code). With full convergence the solution need not be a local optimum (C46_converged_false: false of the code, as DISENTANGLE does not report its changes). With a single customer the second start position raises (C46_single_false)."
  },
  {
   "property": "C47",
   "status": "partial",
   "theorems": [
    "Verif.C47_ranks",
    "Verif.C47_ranks_unique",
    "Verif.C47",
    "Verif.C47_other",
    "Verif.C47_interrupted_partial",
    "Verif.C47_swallowed",
    "Verif.C47_gap_false"
   ],
   "note": "C47, C47_ranks, C47_ranks_unique, C47_other: as stated; without the triangle inequality merges that pay can be missed (C47_gap_false). Interrupts: C47_interrupted_partial, except in the window of C26 in which a customer is served twice; interrupts before the savings procedure has a solution are swallowed (C47_swallowed)."
  },
  {
   "property": "C48",
   "status": "partial",
   "theorems": [
    "Verif.C48_ranks",
    "Verif.C48",
    "Verif.C48_clarke_wright",
    "Verif.C48_interrupted_partial",
    "Verif.C48_swallowed_false"
   ],
   "note": "C48, C48_ranks, C48_clarke_wright: as stated, with D 0 0 = 0 and no demand at the depot. Interrupts of the savings procedure: C48_interrupted_partial, except in the window of C26. Interrupts of the local search are swallowed (C48_swallowed_false: false of the code)."
  },
  {
   "property": "C49",
   "status": "partial",
   "theorems": [
    "Verif.C49_partial",
    "Verif.C49_progress",
    "Verif.C49_clarke_wright",
    "Verif.C49_interrupted_partial",
    "Verif.C49_swallowed",
    "Verif.C49_single_false"
   ],
   "note": "C49_partial, C49_progress, C49_clarke_wright: as stated for two customers or more. With a single one nothing is returned (C49_single_false: false of the code). Interrupts: C49_interrupted_partial, except in the window of C26; between the runs they are swallowed (C49_swallowed)."
  },
  {
   "property": "C50",
   "status": "partial",
   "theorems": [
    "Verif.C50_partial",
    "Verif.C50_star_false",
    "Verif.C50_interrupted_partial",
    "Verif.C50_interrupted_false"
   ],
   "note": "C50_partial: all but the exchanges between routes, which are not searched (C50_star_false: false of the code, though documented). C50_interrupted_partial: an interrupt of the savings procedure is passed on with a complete and feasible solution, except in the window of C26. C50_interrupted_false: an interrupt of the improvement carries nothing, for all instances."
  },
  {
   "property": "C51",
   "status": "partial",
   "theorems": [
    "Verif.C51",
    "Verif.C51_criteria",
    "Verif.C51_two_opt",
    "Verif.C51_all_configurations",
    "Verif.C51_all",
    "Verif.C51_swallowed",
    "Verif.C51_interrupted_partial",
    "Verif.C51_other",
    "Verif.C51_no_customers",
    "Verif.C51_redistribution",
    "Verif.C51_interrupted_false"
   ],
   "note": "The theorems hold for MjDist, that is for metrics and for rounded distances (Metric.mj, RoundedDist.mj). C51, C51_all_configurations, C51_all: as stated, and with minimize_K the route with the smallest demand cannot be redistributed. C51_criteria: the insertion criteria of the configurations. C51_two_opt: after each accepted insertion the route is 2-optimal. C51_no_customers: no customers is an IndexError. Partial because of: interrupts (C51_interrupted_partial between two rounds of the insertion; C51_swallowed: those outside are swallowed, not raised, and the answer is None with one configuration; C51_interrupted_false: while 2-opt moves are looked for, the limit can be exceeded), and an unknown criterion, which is no error but None (C51_other). C51_redistribution: the redistribution step never does anything unless the number of routes is minimised."
  },
  {
   "property": "C52",
   "status": "proved",
   "theorems": [
    "Verif.C52_neighbours",
    "Verif.C52_sweep",
    "Verif.C52_sweep_ends",
    "Verif.C52_answers",
    "Verif.C52_ends",
    "Verif.C52_shortest",
    "Verif.C52_plain",
    "Verif.C52_no_points",
    "Verif.C52_overload"
   ],
   "note": "C52_answers, C52_sweep: as stated with any routine that returns tours. C52_ends, C52_sweep_ends: termination when the routine does not ask more for a part of the customers in the same order; C52_shortest: shortest tours and the triangle inequality. C52_plain: without both limits it equals sweep_init. C52_neighbours: produce_nn_list. C52_no_points, C52_overload: the errors. Termination with other routines is not claimed."
  },
  {
   "property": "C53",
   "status": "partial",
   "theorems": [
    "Verif.C53_grouping",
    "Verif.C53_interchange",
    "Verif.C53_round",
    "Verif.C53_choice",
    "Verif.C53_partial",
    "Verif.C53_single_customer",
    "Verif.C53_no_customers",
    "Verif.C53_unknown",
    "Verif.C53_penalty_false",
    "Verif.C53_best_false",
    "Verif.C53_zero_distance_false",
    "Verif.C53_seed_false"
   ],
   "note": "C53_partial, C53_grouping, C53_round, C53_interchange, C53_choice: as stated if no distance between different nodes is 0 (at customers) and, with a capacity, for two customers or more. The full claim is false: with a distance 0 between two customers one of them can be left out (C53_zero_distance_false), and a single customer with a capacity is an AttributeError (C53_single_customer). C53_choice states the penalty as the code computes it; the documented penalty is not made small (C53_penalty_false). Further claims of the documentation that are false: C53_best_false, C53_seed_false. C53_no_customers, C53_unknown: the other errors."
  },
  {
   "property": "C54",
   "status": "partial",
   "theorems": [
    "Verif.C54_greedy",
    "Verif.C54_partial",
    "Verif.C54_few_customers",
    "Verif.C54_one_route_false",
    "Verif.C54_endless",
    "Verif.C54_interrupted_partial",
    "Verif.C54_matching_false",
    "Verif.C54_endless_false",
    "Verif.C54_interrupted_false",
    "Verif.C54_ties",
    "Verif.C54_handler_order"
   ],
   "note": "C54_greedy, C54_partial, C54_interrupted_partial: as stated if joining routes never costs more or minimize_K is on, the depot has no demand, and (for the interrupt) each customer fits together with another one and the first savings have been evaluated. The full claim is false: if all customers end up in one route the answer is a ValueError (C54_one_route_false, C54_few_customers); savings below 0 make the loop endless (C54_endless, C54_endless_false); the joined pair need not be in a matching of the largest weight (C54_matching_false); the handler of interrupts can raise KeyError (C54_interrupted_false)."
  },
  {
   "property": "C55",
   "status": "partial",
   "theorems": [
    "Verif.C55_choice",
    "Verif.C55_answer_partial",
    "Verif.C55_best",
    "Verif.C55_ends_partial",
    "Verif.C55_endless_false",
    "Verif.C55_single_false",
    "Verif.C55_timeout_false",
    "Verif.C55_interrupt_false",
    "Verif.C55_vehicle_false"
   ],
   "note": "C55_answer_partial, C55_ends_partial, C55_choice, C55_best: as stated if no number of iterations is required and (for termination) the number of vehicles is neither limited nor minimised. The full claim is false: with minimize_K the loop need not end (C55_endless_false); in the single mode of the command line a customer can be missing (C55_single_false); a solver that runs out of time loses the solution found before (C55_timeout_false); an interrupt in the set of all petals is not passed on (C55_interrupt_false). With K=1 the solution attached to an interrupt can serve a customer twice, for solvers that answer as they should (C55_vehicle_false)."
  },
  {
   "property": "C56",
   "status": "proved",
   "theorems": [
    "Verif.C56_multiserved",
    "Verif.C56_cost"
   ],
   "note": ""
  },
  {
   "property": "C57",
   "status": "partial",
   "theorems": [
    "Verif.C57_groups_partial",
    "Verif.C57_found",
    "Verif.C57_discard",
    "Verif.C57_petals",
    "Verif.C57_answer_partial",
    "Verif.C57_even_false",
    "Verif.C57_missed_false"
   ],
   "note": "C57_groups_partial, C57_found, C57_discard, C57_petals: as stated (with the triangle inequality and no demand at the depot), except that a group need not be cheaper if the visit of the moved customer costs exactly the same on both routes (C57_even_false: a bound of zero is taken for none). C57_answer_partial: the petal algorithm with this generator. What the discarded customers save on their old route is left out of account, so other improvements are missed (C57_missed_false)."
  },
  {
   "property": "C58",
   "status": "partial",
   "theorems": [
    "Verif.C58_answer_partial",
    "Verif.C58_given_most",
    "Verif.C58_ends",
    "Verif.C58_no_error_partial",
    "Verif.C58_no_error_increase",
    "Verif.C58_service_time",
    "Verif.C58_last_seed",
    "Verif.C58_given_found",
    "Verif.C58_least_partial",
    "Verif.C58_found_partial",
    "Verif.C58_least_false",
    "Verif.C58_found_false",
    "Verif.C58_given_false",
    "Verif.C58_no_error_false",
    "Verif.C58_answer_false"
   ],
   "note": "C58_answer_partial, C58_ends: as stated, for all answers of the solver and all seed points, except that a time-out of the solver can lose the solution found before (C58_answer_false). C58_least_partial: the fewest routes, and a solution whenever there is one, if the capacity is the only limit, the solver always answers and the number of vehicles is not increased within a trial; with a limit on the route cost more routes than needed can be returned (C58_least_false), or none though there is a solution (C58_found_false). C58_no_error_partial: no exception unless the message about an unsuccessful trial fails, which it does without adaptive weights or on a time-out (C58_no_error_false), but not if the number of vehicles may be increased and is minimized (C58_no_error_increase). C58_found_partial: a solution whenever there is one under the same hypotheses if the routes are not minimized. C58_service_time: what the service time does. A given number of vehicles need not be used (C58_given_false), but no solution has more routes than that (C58_given_most; a tenth or one more if it may be increased), and with the capacity as the only limit a solution with so many vehicles is found if there is one (C58_given_found). C58_last_seed: the seed point of the last vehicle is never used, the rows are one place off."
  },
  {
   "property": "C59",
   "status": "partial",
   "theorems": [
    "Verif.C59_best",
    "Verif.C59_interrupted",
    "Verif.C59_none_raises",
    "Verif.C59_failed_raises",
    "Verif.C59_interrupted_false"
   ],
   "note": "C59_best, C59_interrupted: the choice, the figures and the statistics, for all outcomes, ties and moments of an interrupt. Without a solution there is a TypeError (C59_none_raises); an exception in a run loses what the runs before have found (C59_failed_raises); after an interrupt the solution is not returned, and in the quiet mode it is not printed either (C59_interrupted_false)."
  },
  {
   "property": "C60",
   "status": "partial",
   "theorems": [
    "Verif.C60_lines",
    "Verif.C60_full_partial",
    "Verif.C60_table_partial",
    "Verif.C60_post",
    "Verif.C60_round_raises",
    "Verif.C60_capacity_raises",
    "Verif.C60_table_false",
    "Verif.C60_interrupt_false",
    "Verif.C60_names_false"
   ],
   "note": "C60_lines: the short output, as stated. C60_post: what the post-optimization keeps. C60_full_partial, C60_table_partial: the long output and the table if the capacity is in use, each solution has a customer, the names are distinct and each instance reached has a solution; otherwise there are exceptions or lost results (C60_capacity_raises, C60_table_false, C60_interrupt_false, C60_names_false). C60_round_raises: the option to round the distances never works. Post-optimization with asymmetric distances is not covered."
  },
  {
   "property": "C61",
   "status": "partial",
   "theorems": [
    "Verif.C61_each",
    "Verif.C61_case",
    "Verif.C61_name",
    "Verif.C61_abbreviation",
    "Verif.C61_names_partial",
    "Verif.C61_all",
    "Verif.C61_solver",
    "Verif.C61_distinct",
    "Verif.C61_forbid_partial",
    "Verif.C61_forbid_false",
    "Verif.C61_displayed_false",
    "Verif.C61_twice"
   ],
   "note": "C61_names_partial: every documented name (a table of its own in the specification), in any case of letters, selects its heuristic and nothing else, but for mj76-si, which selects another one (C61_displayed_false: false of the code). C61_each, C61_case, C61_name, C61_abbreviation, C61_all, C61_distinct: the lookup, as stated, for all names. C61_forbid_partial: the exclusion if the names to exclude are in lower case and each of a single heuristic; otherwise there is a KeyError or no effect (C61_forbid_false). Twelve of the displayed names are not known, and \"MJ76-SI\", listed with the names of the heuristic of Mole and Jameson, selects another (C61_displayed_false). Lower case is modelled for the letters of ASCII."
  },
  {
   "property": "C62",
   "status": "partial",
   "theorems": [
    "Verif.C62_nearest_partial",
    "Verif.C62_insertion",
    "Verif.C62_insertion_false",
    "Verif.C62_no_customers_false",
    "Verif.C62_refused"
   ],
   "note": "The comparison holds for the nearest neighbours (customers at the same place left out, C29_coincident_false). The parallel insertion is not compared with the sequential one: C62_insertion_false gives an instance where it costs 14 in place of 12, and it never has fewer routes (C62_insertion). Without customers the code raises (C62_no_customers_false)."
  },
  {
   "property": "C63",
   "status": "partial",
   "theorems": [
    "Verif.C63_partial",
    "Verif.C63_refused",
    "Verif.C63_no_points",
    "Verif.C63_no_customers_false",
    "Verif.C63_matching_partial",
    "Verif.C63_assignment_partial",
    "Verif.C63_petals_partial",
    "Verif.C63_solver_no_points"
   ],
   "note": "Proved for the eighteen heuristics that do not call the integer programming solver (C63_partial), and for the other three from the contract of the solver: C63_matching_partial (with a routine for the shortest tours, e.g. the exact one by C71_least; if all the customers fit on one route ValueError may be raised instead), C63_assignment_partial (capacity only, a total demand above the tolerance), C63_petals_partial (default options without the minimisation of the routes, with which it need not end, C55_endless_false; routes may be empty). Wren and Holliday's may have to be interrupted, and hands out such a solution then (without the minimisation of the routes it need not end, C46_endless); the Lagrangean relaxation needs a capacity in use and a positive demand (C44_endless); at least two customers (C46_single_false, C49_single_false, C53_single_customer). Without customers several heuristics raise or return nothing (C63_no_customers_false)."
  },
  {
   "property": "C64",
   "status": "proved",
   "theorems": [
    "Verif.C64_best",
    "Verif.C64_lines"
   ],
   "note": "For the heuristics of C63, with its conditions. The best of several runs is stated for all of them but Wren and Holliday's, whose run may be interrupted."
  },
  {
   "property": "C65",
   "status": "partial",
   "theorems": [
    "Verif.C65_tsp",
    "Verif.C65_tsp_scaled",
    "Verif.C65_cvrp_partial",
    "Verif.C65_exact",
    "Verif.C65_ones",
    "Verif.C65_limit",
    "Verif.C65_fits",
    "Verif.C65_selection_raises",
    "Verif.C65_selection_false",
    "Verif.C65_fraction_false",
    "Verif.C65_capacity_false",
    "Verif.C65_scaled_limit_false"
   ],
   "note": "C65_tsp, C65_tsp_scaled: as stated for a TSP. C65_exact: as stated for a CVRP with whole demands and a whole capacity; C65_cvrp_partial: in general, what is read of demands and capacity with fractions; C65_ones: without demands; C65_limit: the limit on the route cost; C65_fits: routes that fit still fit. False: a selection of nodes is not applied to the demands (C65_selection_false; fewer nodes than demands make a file that cannot be read, C65_selection_raises), fractions are cut off so that infeasible routes become feasible (C65_fraction_false), without a capacity the number of nodes is written (C65_capacity_false), the limit is not scaled by the precision (C65_scaled_limit_false)."
  },
  {
   "property": "C66",
   "status": "partial",
   "theorems": [
    "Verif.C66_fields",
    "Verif.C66_blank_needed",
    "Verif.C66_section_partial",
    "Verif.C66_section_differs",
    "Verif.C66_section_last",
    "Verif.C66_depot_false",
    "Verif.C66_end_false",
    "Verif.C66_remark_false"
   ],
   "note": "C66_fields: as stated for the fields, among arbitrary other lines that do not mention them. C66_section_partial: a section at the end of the file where the depot has the same service time as the customers; C66_section_differs: a section with different times is refused. False: the value must be set off by a blank after the colon (C66_blank_needed), the time of the depot counts as one of the customers (C66_depot_false), any later line that is not of two words, such as the end mark, makes the reader raise (C66_section_last, C66_end_false), a remark with the name of a field is taken for the field (C66_remark_false)."
  },
  {
   "property": "C67",
   "status": "partial",
   "theorems": [
    "Verif.C67_coords",
    "Verif.C67_geo",
    "Verif.C67_depot_partial",
    "Verif.C67_tsp",
    "Verif.C67_blank_lines",
    "Verif.C67_numbers_false",
    "Verif.C67_missing_false",
    "Verif.C67_depot_false"
   ],
   "note": "C67_coords: as stated if the depot is the first node; C67_geo: for geographic coordinates; C67_tsp: without demands; C67_blank_lines: blank lines in between; C67_depot_partial: another depot becomes the first in points and demands, and in the distances but for the last row and column. False: the distances of another depot (C67_depot_false); the numbers of the nodes are not read (C67_numbers_false); a missing demand is not noticed (C67_missing_false)."
  },
  {
   "property": "C68",
   "status": "partial",
   "theorems": [
    "Verif.C68_cones_partial",
    "Verif.C68_cones_all",
    "Verif.C68_no_error_partial",
    "Verif.C68_bisect",
    "Verif.C68_large",
    "Verif.C68_large_raises",
    "Verif.C68_cones_false",
    "Verif.C68_tiny_false",
    "Verif.C68_large_false"
   ],
   "note": "C68_cones_partial: as many seed points as vehicles, each near the customers or at the origin of the coordinates, if what is shared is more than a tolerance; a tiny total makes too many groups and raises (C68_tiny_false). C68_cones_all: none at the origin if no customer exceeds the share of a vehicle; otherwise a seed point can be left at the origin wherever the depot is (C68_cones_false). C68_no_error_partial: the search with these seed points ends with a result, with the hypothesis on messages of C58_no_error_partial. C68_large: the first trial of the method of large demands; from the third trial on the method raises an exception (C68_large_raises), so that the search with all trials, the default, does (C68_large_false). The methods that cluster with sklearn are not modelled."
  },
  {
   "property": "C69",
   "status": "partial",
   "theorems": [
    "Verif.C69_kinds",
    "Verif.C69_matrix",
    "Verif.C69_triangle_partial",
    "Verif.C69_detour",
    "Verif.C69_plane",
    "Verif.C69_whole",
    "Verif.C69_positive_partial",
    "Verif.C69_geo",
    "Verif.C69_others",
    "Verif.C69_metric",
    "Verif.C69_triangle_false",
    "Verif.C69_positive_false",
    "Verif.C69_nint_false"
   ],
   "note": "C69_kinds, C69_matrix, C69_plane, C69_whole, C69_geo: as stated, for all kinds. C69_triangle_partial, C69_positive_partial: for all kinds but EUC_2D and FLOOR_2D, for which both claims can fail (C69_triangle_false, C69_positive_false); C69_detour: for all kinds a detour is at most 1 shorter than the direct way. Halves are rounded to even numbers, not up as the file format asks for (C69_nint_false). C69_metric: the kinds whose distances meet what C63 asks of an instance. C69_others: distances of seed points. The numbers are real numbers, not floating point."
  },
  {
   "property": "C70",
   "status": "partial",
   "theorems": [
    "Verif.C70_sorted_partial",
    "Verif.C70_order",
    "Verif.C70_numbers",
    "Verif.C70_folder_partial",
    "Verif.C70_list",
    "Verif.C70_single",
    "Verif.C70_paths",
    "Verif.C70_digits_false",
    "Verif.C70_case_false"
   ],
   "note": "C70_sorted_partial: the sorting, as stated, for names with no digits but 0 to 9; with other digits it can raise (C70_digits_false). C70_order, C70_numbers: what the natural order is. C70_folder_partial: folders, for endings in lower case and files that are not hidden; others are only found if they are named (C70_case_false). C70_list, C70_single, C70_paths: as stated. The search of folders below the given one is C41."
  },
  {
   "property": "C71",
   "status": "proved",
   "theorems": [
    "Verif.C71_least",
    "Verif.C71_callback",
    "Verif.C71_solver_exists",
    "Verif.C71_optimal",
    "Verif.C71_routine",
    "Verif.C71_single",
    "Verif.C71_asymmetric_false"
   ],
   "note": "C71_optimal for symmetric matrices, from the contract EdgeSolved of the solver with lazy constraints (met by some solver, C71_solver_exists); C71_callback: the constraints exclude the candidate and no tour. C71_routine, C71_least: the routine meets what the theorems about the heuristics ask of it. Not true for other matrices (C71_asymmetric_false); one node gives None (C71_single)."
  },
  {
   "property": "C72",
   "status": "partial",
   "theorems": [
    "Verif.C72_lkh",
    "Verif.C72_small",
    "Verif.C72_integers",
    "Verif.C72_error",
    "Verif.C72_cost_false",
    "Verif.C72_limit_false",
    "Verif.C72_acotsp",
    "Verif.C72_acotsp_small",
    "Verif.C72_ants_false",
    "Verif.C72_fast"
   ],
   "note": "C72_lkh, C72_acotsp, C72_fast: the tour is right whatever the program answers, if its answer is right. The cost of the tour is true for integer distances (C72_integers); for others it is too low by less than one unit of the accuracy for each step (C72_error), and for up to three nodes by up to one for each step (C72_small, C72_cost_false), so that the two phase heuristic breaks the limit of the route length (C72_limit_false). ACOTSP with ants raises (C72_ants_false). The programs and the text of their files are not modelled, only the lines."
  },
  {
   "property": "C73",
   "status": "partial",
   "theorems": [
    "Verif.C73_directed_partial",
    "Verif.C73_ordered_partial",
    "Verif.C73_flag_false",
    "Verif.C73_routes_partial",
    "Verif.C73_undirected_partial",
    "Verif.C73_normalized_partial",
    "Verif.C73_cost_partial",
    "Verif.C73_count_partial",
    "Verif.C73_single_false"
   ],
   "note": "C73_directed_partial, C73_ordered_partial: what is in the set for either value of the flag. C73_routes_partial, C73_undirected_partial, C73_normalized_partial: equal sets mean equal routes, with the direction for symmetric=True and without it for symmetric=False; the documented meaning of the flag is the opposite (C73_flag_false). C73_cost_partial, C73_count_partial for the directed edges; with undirected edges routes with one customer count once (C73_single_false)."
  },
  {
   "property": "C74",
   "status": "partial",
   "theorems": [
    "Verif.C74_two_opt_partial",
    "Verif.C74_two_opt_safe_partial",
    "Verif.C74_one_point_sound_partial",
    "Verif.C74_one_point_partial",
    "Verif.C74_two_point_partial",
    "Verif.C74_relocate_partial",
    "Verif.C74_exchange_partial",
    "Verif.C74_bound_false",
    "Verif.C74_star_false",
    "Verif.C74_star_partial"
   ],
   "note": "C74_two_opt_partial, C74_one_point_partial, C74_two_point_partial: sound and complete neighbourhoods of whole solutions (no symmetry needed); C74_one_point_sound_partial without any condition on numbers. C74_relocate_partial, C74_exchange_partial: each route improved on its own. C74_star_partial: if the 2-opt* move ends without an error, no reconnection of two routes and no reversal is good enough. False in full: the 2-opt* move never returns a solution and raises NameError on an improvable one (C74_star_false); relocate and exchange ignore the bound (C74_bound_false)."
  },
  {
   "property": "C75",
   "status": "partial",
   "theorems": [
    "Verif.C75_partial",
    "Verif.C75_pass_partial",
    "Verif.C75_max_false"
   ],
   "note": "C75_partial: ends in a common local optimum for any list of the five working operators. C75_pass_partial: the greatest number of iterations is kept within the first pass over the operators. False: the greatest number of iterations is not kept, with one operator it has no effect at all (C75_max_false)."
  },
  {
   "property": "C76",
   "status": "proved",
   "theorems": [
    "Verif.C76_two_opt",
    "Verif.C76_relocate",
    "Verif.C76_exchange"
   ],
   "note": "C76_two_opt, C76_relocate, C76_exchange: nothing found by the naive operator on the solution iff nothing found by the fast one on each route."
  },
  {
   "property": "C77",
   "status": "partial",
   "theorems": [
    "Verif.C77_runs_partial",
    "Verif.C77_unique",
    "Verif.C77_best_partial",
    "Verif.C77_interlace_partial",
    "Verif.C77_sector_false"
   ],
   "note": "C77_runs_partial, C77_unique, C77_best_partial and C77_interlace_partial hold with the capacity (or nothing) as the only limit. With a limit on the route cost the claim is false: C77_sector_false shows a route that skips a customer, because the first customer taken out of the last route is stepped over."
  },
  {
   "property": "C78",
   "status": "partial",
   "theorems": [
    "Verif.C78_one_point_partial",
    "Verif.C78_two_point_partial",
    "Verif.C78_two_point_false"
   ],
   "note": "C78_one_point_partial needs the triangle inequality (the fast move checks only the receiving route, C16_needs_triangle). C78_two_point_partial: one direction always, the other without a limit on the route cost. With one the claim is false (C78_two_point_false): the fast move does not allow for the tolerance."
  },
  {
   "property": "C79",
   "status": "partial",
   "theorems": [
    "Verif.C79_partial",
    "Verif.C79_false_first",
    "Verif.C79_false_limits"
   ],
   "note": "Proved for every time from the first return of the TSP routine on (C79_partial), with the limits named per case. An interrupt before that is lost: an error about a name without a value is raised in the place of it (C79_false_first, for every instance). The one route breaks the capacity limit in general, and several routes may break the cost limit as they are not driven in the order in which they were found to keep it (C79_false_limits)."
  },
  {
   "property": "C80",
   "status": "partial",
   "theorems": [
    "Verif.C80_places",
    "Verif.C80_demand",
    "Verif.C80_total",
    "Verif.C80_distances",
    "Verif.C80_regular",
    "Verif.C80_cli",
    "Verif.C80_size_false",
    "Verif.C80_exact_false"
   ],
   "note": "C80_places, C80_demand, C80_total, C80_distances, C80_regular, C80_cli: as stated. The size is one less than the number of places (C80_size_false, for all problems). The command line passes \"EXACT_2D\" as the kind of the distances although they are rounded (C80_exact_false). The numbers are real numbers, not floating point."
  },
  {
   "property": "C81",
   "status": "partial",
   "theorems": [
    "Verif.C81_options",
    "Verif.C81_files",
    "Verif.C81_random_partial",
    "Verif.C81_usage",
    "Verif.C81_random_false",
    "Verif.C81_interrupt_false",
    "Verif.C81_nothing_false",
    "Verif.C81_value_false"
   ],
   "note": "C81_options, C81_files, C81_usage: as stated for values that are not written like options. C81_random_partial: a random problem is solved and shown; the message that the number is no path and the usage follow (also C81_random_false). An interrupt of a random problem is not passed on, unlike that of a file (C81_interrupt_false), and without a solution ends in a TypeError (C81_nothing_false). A value that looks like an option counts as both, and an option behind the file is taken for the file (C81_value_false)."
  },
  {
   "property": "C82",
   "status": "partial",
   "theorems": [
    "Verif.C82_rounded",
    "Verif.C82_partial",
    "Verif.C82_lost_false",
    "Verif.C82_search",
    "Verif.C82_one_point",
    "Verif.C82_chain_false"
   ],
   "note": "C82_rounded: the rounding kinds. C82_partial: all the heuristics without the solver but that of Wren and Holliday; the nearest neighbours need that no two customers have the distance zero, the others what RoundedNeeds lists. C82_search, C82_one_point: the local search without the chain move keeps the limits on rounded distances. Without these needs the claim is false with the default kind EUC_2D: customers at different places can have the rounded distance 0, and sn, pn and ty then lose one of them (C82_lost_false); the chain move can break the length limit (C82_chain_false)."
  },
  {
   "property": "C83",
   "status": "partial",
   "theorems": [
    "Verif.C83_usage",
    "Verif.C83_honest",
    "Verif.C83_ropt",
    "Verif.C83_gurobi",
    "Verif.C83_lkh_partial",
    "Verif.C83_acotsp",
    "Verif.C83_lkh_false",
    "Verif.C83_accuracy_false",
    "Verif.C83_single_false",
    "Verif.C83_fast_partial"
   ],
   "note": "C83_usage, C83_honest: as stated for every routine. C83_ropt, C83_acotsp: any distances (ropt: the same both ways). C83_gurobi: the tour is a shortest one, or the solver ran out of time or was interrupted. C83_lkh_partial and C83_fast_partial: for distances that are whole numbers; otherwise the cost that the routine reports is not that of the tour and the assertion at the end fails (C83_lkh_false, C83_accuracy_false). A file with one node ends in a TypeError with gurobi (C83_single_false), as does a run of ACOTSP that prints no tour. The sums are exact here; with floats the assertion could also fail for ropt and gurobi."
  },
  {
   "property": "C84",
   "status": "partial",
   "theorems": [
    "Verif.C84_options",
    "Verif.C84_refused",
    "Verif.C84_listing",
    "Verif.C84_list_false",
    "Verif.C84_lines",
    "Verif.C84_unknown",
    "Verif.C84_simulate",
    "Verif.C84_simulate_false"
   ],
   "note": "C84_options, C84_refused: the options, in any order and number. C84_listing: the list. C84_lines: with the short output, the calls and their lines (with C60). C84_unknown, C84_simulate: as stated. False: with -l alone the status is that of a failure, and a call of main with it is refused for want of a path (C84_list_false); a simulation with the long output and two heuristics or more ends in a KeyError (C84_simulate_false). Not modelled: shortened and joined options, unreadable files."
  },
  {
   "property": "C85",
   "status": "partial",
   "theorems": [
    "Verif.C85_table",
    "Verif.C85_verdicts",
    "Verif.C85_totals_partial",
    "Verif.C85_loads",
    "Verif.C85_totals_false",
    "Verif.C85_depot_false",
    "Verif.C85_empty_false"
   ],
   "note": "C85_table, C85_verdicts, C85_loads: as stated, for solutions without empty routes and a depot without demand. C85_totals_partial: the columns add up to the totals up to half a hundredth for each row and the total, and exactly if the distances have two digits. False: else they need not add up (C85_totals_false); the demand of a depot is counted twice in a load and not in the verdict (C85_depot_false); empty routes are counted but have no row (C85_empty_false)."
  }
 ]
}