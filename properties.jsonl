{"id": "C01", "title": "Solution/route-list conversion round trip", "statement": "Converting a giant-tour solution that starts and ends at the depot to a list of routes and back gives the same solution with empty routes removed; in particular it is the identity on solutions without empty routes. Converting a list of non-empty depot-free (or depot-delimited) routes to a solution and back returns exactly those routes, each delimited by the depot.", "quantifier": "every solution list over natural-number node ids (any length, any number of empty routes) and every list of routes", "why_tests_cant": "The claim is about all lists of any length; tests only try a handful of shapes and miss corner cases such as adjacent depots or one-customer routes.", "anchors": ["verypy/util.py:sol2routes", "verypy/util.py:routes2sol", "verypy/util.py:without_empty_routes"]}
{"id": "C02", "title": "Solution cost is the sum of its route costs", "statement": "For any distance matrix with D[0,0]=0 the objective of a solution that starts and ends at the depot equals the sum of the objectives of the routes it is made of.", "quantifier": "every distance matrix with zero depot self-distance (symmetric or not) and every depot-delimited solution of any length", "why_tests_cant": "An identity over all matrices and all solution lengths.", "anchors": ["verypy/util.py:objf", "verypy/util.py:sol2routes"]}
{"id": "C03", "title": "Removing empty routes is safe", "statement": "Removing empty routes never changes the sequence of customers visited nor (with D[0,0]=0) the cost, leaves no two adjacent depot visits, and doing it twice changes nothing.", "quantifier": "every solution without immediately repeated customers and every distance matrix with D[0,0]=0", "why_tests_cant": "Quantifies over all solutions, including arbitrarily many and arbitrarily placed empty routes.", "anchors": ["verypy/util.py:without_empty_routes"]}
{"id": "C04", "title": "Solution comparison is a strict order and best-of loops return a best candidate", "statement": "is_better_sol is irreflexive, asymmetric and transitive on (cost, route count) pairs in both objective modes, and folding it over any sequence of candidates, as all best-of-n loops do, returns a candidate that no candidate is better than.", "quantifier": "all cost/vehicle-count pairs including 'no incumbent', both objective modes, and candidate sequences of any length", "why_tests_cant": "Order laws and loop results range over infinitely many values and any number of retries.", "anchors": ["verypy/util.py:is_better_sol", "verypy/shared_cli.py:read_and_solve_a_problem", "verypy/classic_heuristics/gaskell_savings.py", "verypy/classic_heuristics/paessens_savings.py"]}
{"id": "C05", "title": "OrderedDictSet behaves as an insertion-ordered set", "statement": "After any history of add/remove/update/index operations, an OrderedDictSet indexes and iterates like the insertion-ordered sequence of its distinct elements.", "quantifier": "every finite history of operations on the set", "why_tests_cant": "Bugs appear only for particular interleavings of cached indexing with additions; histories are unbounded.", "anchors": ["verypy/util.py:OrderedDictSet"]}
{"id": "C06", "title": "RouteData conversion preserves a solution and computes true cost and demand", "statement": "Building route records from a solution and converting them back yields the solution without empty routes; each record's cost and demand equal the true cost and demand of its route.", "quantifier": "every depot-delimited solution, distance matrix and demand vector", "why_tests_cant": "All solutions, matrices and demands.", "anchors": ["verypy/routedata.py:RouteData.from_solution", "verypy/routedata.py:RouteData.to_solution", "verypy/routedata.py:RouteData.from_routes"]}
{"id": "C07", "title": "Cumulative route data is exact", "statement": "After updating auxiliary data of a route, the forward (backward) cumulative cost and demand at every position equals the cost and demand of the route prefix (suffix) at that position.", "quantifier": "every route with at least two nodes, every distance matrix and demand vector, every position", "why_tests_cant": "All positions of all routes.", "anchors": ["verypy/routedata.py:RouteData.update_auxiliary_data"]}
{"id": "C08", "title": "Normalization keeps the solution and is canonical", "statement": "normalize_solution keeps every route's customers and (symmetric D, D[0,0]=0) the cost, is idempotent, and gives the same result for two solutions that differ only in route order, route direction and number of repeated depot visits.", "quantifier": "every pair of solutions with at least one customer per listed route, and every symmetric matrix", "why_tests_cant": "Canonicity is a statement about all pairs of equivalent solutions.", "anchors": ["verypy/cvrp_ops.py:normalize_solution", "verypy/cvrp_ops.py:_list_trim", "verypy/cvrp_ops.py:_list_split"]}
{"id": "C09", "title": "Feasibility validator is exact", "statement": "For a solution starting at the depot the validator's three verdicts are true exactly when, respectively, every customer 1..N-1 is visited exactly once, every route's total demand is within C (plus tolerance), and every route's cost is within L (plus tolerance).", "quantifier": "every solution, demand vector, matrix, capacity and route cost limit", "why_tests_cant": "Both directions of an equivalence over all inputs: no false accept and no false reject.", "anchors": ["verypy/cvrp_ops.py:validate_solution_feasibility"]}
{"id": "C10", "title": "recalculate_objective agrees with the objective function", "statement": "Recalculating the objective of any solution equals the sum of its consecutive distances, closing the tour over the depot when the solution does not start or end there.", "quantifier": "every solution and distance matrix", "why_tests_cant": "All solutions.", "anchors": ["verypy/cvrp_ops.py:recalculate_objective", "verypy/util.py:objf"]}
{"id": "C11", "title": "Service time is charged exactly once per customer", "statement": "Baking a service time st into the distance matrix increases the cost of any route by exactly st per served customer.", "quantifier": "every matrix with zero diagonal (integer or real), every service time (integer or real) and every depot-delimited solution without immediate repetitions", "why_tests_cant": "The rounding branch depends on the parity and type of st; claim is over all routes.", "anchors": ["verypy/cvrp_ops.py:D2D_c"]}
{"id": "C12", "title": "2-opt move is sound, complete and exact", "statement": "A 2-opt call returns either a route obtained by reversing one segment (same nodes, same end points) together with exactly the resulting change of cost, which is an improvement beyond the given bound; or nothing, and then no segment reversal improves the route by more than the tolerance. With best-accept no other reversal is better by more than the tolerance.", "quantifier": "every route, symmetric matrix, strategy and incumbent bound", "why_tests_cant": "Local optimality is a for-all claim over all O(n^2) neighbours for all routes.", "anchors": ["verypy/local_search/intra_route_operators.py:do_2opt_move"]}
{"id": "C13", "title": "3-opt move is sound and exact, and 3-opt optimal routes are 2-opt optimal", "statement": "A 3-opt call returns a route with the same nodes and end points and exactly the reported, improving, change of cost; if it returns nothing then no 2-opt move and none of the segment exchange / reversal reconnections of three edges improves the route.", "quantifier": "every route, symmetric matrix, strategy and incumbent bound", "why_tests_cant": "All triples of edges of all routes.", "anchors": ["verypy/local_search/intra_route_operators.py:do_3opt_move"]}
{"id": "C14", "title": "Relocate move is sound, complete and exact", "statement": "A relocate call returns a route where one customer is moved to another position with exactly the reported, improving, cost change; or nothing, and then no such relocation improves the route.", "quantifier": "every route, matrix, strategy and incumbent bound", "why_tests_cant": "All pairs of positions of all routes.", "anchors": ["verypy/local_search/intra_route_operators.py:do_relocate_move"]}
{"id": "C15", "title": "Exchange move is sound, complete and exact", "statement": "An exchange call returns a route where two customers are swapped with exactly the reported, improving, cost change; or nothing, and then no swap improves the route.", "quantifier": "every route, matrix, strategy and incumbent bound", "why_tests_cant": "All pairs of positions of all routes.", "anchors": ["verypy/local_search/intra_route_operators.py:do_exchange_move"]}
{"id": "C16", "title": "One-point inter-route move conserves customers, constraints and bookkeeping", "statement": "A returned one-point move transfers exactly one customer from the first to the second route, keeps the receiving route within C and L (and, when distances satisfy the triangle inequality and demands are non-negative, also the giving route), reports exactly the change in total cost, and the returned records carry the true cost and demand of the returned routes; if nothing is returned no feasible transfer improves.", "quantifier": "every pair of routes with true bookkeeping, every matrix, demand, C, L, strategy and bound", "why_tests_cant": "All positions, all constraint settings.", "anchors": ["verypy/local_search/inter_route_operators.py:do_1point_move"]}
{"id": "C17", "title": "Two-point inter-route swap conserves customers, constraints and bookkeeping", "statement": "A returned two-point move swaps exactly one customer of each route, keeps C and L, reports the exact cost change and true bookkeeping.", "quantifier": "every pair of routes with true bookkeeping, every matrix, demand, C, L, strategy and bound", "why_tests_cant": "All positions, all constraint settings.", "anchors": ["verypy/local_search/inter_route_operators.py:do_2point_move"]}
{"id": "C18", "title": "2-opt* move conserves customers, constraints and bookkeeping", "statement": "A returned 2-opt* move only exchanges route tails (possibly with reversal), keeps both routes within C and L, reports the exact change in total cost, and returns records carrying the true cost and demand of both routes.", "quantifier": "every pair of routes, symmetric matrix, demands, C, L, strategy and bound", "why_tests_cant": "Wrong bookkeeping is visible only for particular combinations of routes and later moves.", "anchors": ["verypy/local_search/inter_route_operators.py:do_2optstar_move"]}
{"id": "C19", "title": "Insertion keeps constraints and inserts exactly the given customers", "statement": "Inserting customers to a route keeps the order of customers already on it, adds exactly the inserted ones, never violates C or L when the receiving route was feasible, and returns true cost, demand and delta.", "quantifier": "every customer or list of customers, receiving route, matrix, demands, C, L, strategy", "why_tests_cant": "Lists of any length and all positions.", "anchors": ["verypy/local_search/inter_route_operators.py:do_insert_move"]}
{"id": "C20", "title": "Redistribution conserves customers", "statement": "When redistributing a route's customers to other routes succeeds, every customer of the removed route is on exactly one receiving route, no customer is lost or duplicated and all constraints hold.", "quantifier": "every route to be removed, list of receiving routes, matrix, demands, C, L and delta bound", "why_tests_cant": "Depends on failing insertions after partially accepted ones, with arbitrarily many routes.", "anchors": ["verypy/local_search/inter_route_operators.py:do_redistribute_move"]}
{"id": "C21", "title": "Chain move conserves customers, constraints and bookkeeping", "statement": "A returned three-route chain (ejection) move moves one customer from the first to second and one from the second to third route, keeping the second and the third route within C and L (and, when distances satisfy the triangle inequality and demands are non-negative, also the first), with exact delta and true bookkeeping.", "quantifier": "every triple of routes, matrix, demands, C, L, strategy", "why_tests_cant": "All triples of positions.", "anchors": ["verypy/local_search/inter_route_operators.py:do_chain_move"]}
{"id": "C22", "title": "3-opt* on a whole solution conserves customers, constraints and cost accounting", "statement": "A returned 3-opt* move yields a solution that starts and ends at the depot and visits exactly the same customers, is feasible when the input was, and whose cost differs by exactly the reported improving delta. It is a reconnection of the given solution cut at three edges. If no move is returned, no such reconnection within the limits improves by more than the tolerance, and with the best-accept strategy none is better than the returned one by more than the tolerance.", "quantifier": "every solution, symmetric matrix with zero depot self-distance, demands, C, L and strategy", "why_tests_cant": "Sixteen reconnection cases times all triples of positions and depot placements.", "anchors": ["verypy/local_search/solution_operators.py:do_3optstar_move", "verypy/local_search/solution_operators.py:_check_3opt_move", "verypy/local_search/solution_operators.py:MOVES_3OPTSTAR"]}
{"id": "C23", "title": "Local search never worsens, loses customers or breaks constraints", "statement": "The local search driver, run with any list of improving operators that conserve customers, keep constraints and report exact deltas, returns a solution with the same customers whose cost is not larger than the initial one and which is feasible if the initial one was.", "quantifier": "every initial solution, operator list, operator strategy, iteration strategy and iteration limit", "why_tests_cant": "Ranges over all operator sequences and unbounded numbers of iterations.", "anchors": ["verypy/local_search/__init__.py:do_local_search"]}
{"id": "C24", "title": "Local search result is locally optimal", "statement": "When local search stops without hitting the iteration limit, no given operator can improve any route (or any combination of routes) of the returned solution.", "quantifier": "every initial solution, list of deterministic operators and strategy", "why_tests_cant": "Depends on the correctness of the optimality marks over arbitrarily long histories.", "anchors": ["verypy/local_search/__init__.py:do_local_search"]}
{"id": "C25", "title": "Parallel savings returns a complete, feasible and not worse than trivial solution", "statement": "The parallel savings heuristic visits every customer exactly once, keeps C and L whenever each customer alone is feasible, and with the cost objective never returns a solution costlier than serving every customer separately. With the triangle inequality no two routes of the result can still be joined within the limits at no extra cost.", "quantifier": "every symmetric instance, savings function order, C, L and objective mode", "why_tests_cant": "Invariant over all merge sequences for all instances.", "anchors": ["verypy/classic_heuristics/parallel_savings.py:parallel_savings_init"]}
{"id": "C26", "title": "Interrupted savings still hands out a complete solution", "statement": "Whenever the savings construction is interrupted, the solution attached to the interrupt serves every customer exactly once.", "quantifier": "every instance and every point of interruption", "why_tests_cant": "Crash points between any two statements cannot be enumerated by tests.", "anchors": ["verypy/classic_heuristics/parallel_savings.py:parallel_savings_init", "verypy/classic_heuristics/sequential_savings.py:sequential_savings_init", "verypy/classic_heuristics/cmt_2phase.py:_phase_one"]}
{"id": "C27", "title": "Sequential savings returns a complete and feasible solution", "statement": "The sequential savings heuristic terminates, visits every customer exactly once, keeps C and L whenever each customer alone is feasible and with the cost objective never costs more than serving every customer separately. With the triangle inequality no customer of a later route can still be appended to an earlier route within the limits at no extra cost.", "quantifier": "every symmetric instance and every route initialization mode", "why_tests_cant": "Invariant over all construction sequences.", "anchors": ["verypy/classic_heuristics/sequential_savings.py:sequential_savings_init"]}
{"id": "C28", "title": "Cheapest insertion returns a complete and feasible solution", "statement": "Sequential and parallel cheapest insertion serve every customer exactly once and keep C and L whenever each customer alone is feasible.", "quantifier": "every instance, seed mode, number of emerging routes and tie breaking order", "why_tests_cant": "The heap order depends on object identities; all orders must be covered.", "anchors": ["verypy/classic_heuristics/cheapest_insertion.py:cheapest_insertion_init"]}
{"id": "C29", "title": "Nearest neighbor returns a complete and feasible solution", "statement": "The nearest neighbor heuristic serves every customer exactly once and keeps C and L whenever each customer alone is feasible.", "quantifier": "every symmetric instance, including coincident customers, and every seed mode", "why_tests_cant": "Failure needs a particular coincidence of ties and seed order.", "anchors": ["verypy/classic_heuristics/nearest_neighbor.py:nearest_neighbor_init"]}
{"id": "C30", "title": "Sweep returns a complete and feasible solution", "statement": "One sweep around the depot in either direction from any start routes every customer exactly once and keeps C and L whenever each customer alone is feasible.", "quantifier": "every instance, polar order, start position, direction and route optimizer", "why_tests_cant": "Circular scan with removal of already swept customers, over all orders.", "anchors": ["verypy/classic_heuristics/sweep.py:do_one_sweep", "verypy/classic_heuristics/sweep.py:_ensure_L_feasible"]}
{"id": "C31", "title": "Built-in TSP solver is sound and terminates at a local optimum", "statement": "The built-in r-opt TSP solver terminates, returns a closed tour over exactly the given nodes starting from the first one, with exactly its true cost, never costlier than the input order, and 2-opt optimal.", "quantifier": "every symmetric matrix and non-empty node list", "why_tests_cant": "Termination and optimality over all instances.", "anchors": ["verypy/tsp_solvers/tsp_solver_ropt.py:solve_tsp_ropt"]}
{"id": "C32", "title": "Forcing feasibility splits routes only", "statement": "Forcing a solution feasible keeps the order of all customers, only adds depot visits and, whenever each customer alone is feasible, produces a solution all of whose routes satisfy C and L; the fast constraint checker accepts exactly the solutions all of whose route prefixes satisfy C and L.", "quantifier": "every solution, matrix, non-negative demands, C and L", "why_tests_cant": "All solutions of any length.", "anchors": ["verypy/classic_heuristics/lr3opt.py:_force_feasible", "verypy/classic_heuristics/lr3opt.py:_check_CL_constraints"]}
{"id": "C33", "title": "Route-first-cluster-second partition is complete and optimal", "statement": "Partitioning a giant tour returns routes that serve each customer exactly once and whose total cost is minimal among all feasible partitions of the tour to consecutive segments.", "quantifier": "every giant tour, segment cost table and capacity", "why_tests_cant": "Optimality over exponentially many partitions.", "anchors": ["verypy/classic_heuristics/rfcs.py:_partition_to_routes_with_cost_matrix"]}
{"id": "C34", "title": "TSPLIB explicit matrices are read exactly", "statement": "For each supported explicit matrix format, the reader accepts exactly the number of values the format prescribes and places each value so that the result is the symmetric matrix the file describes; writing a symmetric zero-diagonal matrix in the writer's format and reading it back returns the same matrix.", "quantifier": "every dimension, every matrix, every supported format and every number of values in the file", "why_tests_cant": "Cursor arithmetic must be right for every dimension and every position.", "anchors": ["verypy/cvrp_io.py:read_TSPLIB_CVRP", "verypy/cvrp_io.py:write_TSPLIB_file"]}
{"id": "C35", "title": "Moving the depot to index 0 permutes the whole problem consistently", "statement": "When the file's depot is not the first node, the read problem is the same problem with nodes renumbered: distances, demands and coordinates all follow the same permutation.", "quantifier": "every matrix, dimension and depot position", "why_tests_cant": "All dimensions and positions.", "anchors": ["verypy/cvrp_io.py:read_TSPLIB_CVRP"]}
{"id": "C36", "title": "Solution files written can be read back", "statement": "Reading back the text the solution writer produces returns the same solution (without empty routes), cost and number of routes.", "quantifier": "every solution and integer cost", "why_tests_cant": "All solutions.", "anchors": ["verypy/cvrp_io.py:as_OPT_solution", "verypy/cvrp_io.py:read_OPT_CVRP"]}
{"id": "C37", "title": "VRPH solution encoding is lossless", "statement": "The VRPH encoding determines the solution up to empty routes, and its first element is the largest node id plus one.", "quantifier": "every solution starting and ending at the depot", "why_tests_cant": "Injectivity is a claim about all pairs of solutions.", "anchors": ["verypy/cvrp_io.py:as_VRPH_solution"]}
{"id": "C38", "title": "Two-phase route building keeps constraints and customers", "statement": "The first phase of the two phase heuristic, with any TSP routine that returns a closed tour over its input nodes with its true cost not larger than that of the input order, serves each customer exactly once and keeps C and L whenever each customer alone is feasible.", "quantifier": "every instance, seed rule and TSP routine satisfying the contract", "why_tests_cant": "Universally quantified over TSP routines and insertion orders.", "anchors": ["verypy/classic_heuristics/cmt_2phase.py:_phase_one"]}
{"id": "C39", "title": "Improvement callback of the Gillett-Miller sweep is used whatever constraints are set", "statement": "The emerging-route improvement of the Gillett-Miller sweep accepts an improving replacement that respects the constraints which are set, also when only one of C and L is set.", "quantifier": "every route state and constraint combination", "why_tests_cant": "Claim about all states.", "anchors": ["verypy/classic_heuristics/gillet_miller_sweep.py:_improvement_callback"]}
{"id": "C40", "title": "Complain heuristic conserves customers", "statement": "The complain procedure never loses or duplicates a customer: the customers on the routes together with those reported unrouted are the same before and after, and route constraints and the records (cost, and with a capacity also demand) stay correct. If it reports no improvement, nothing changed and no unrouted customer could have been placed.", "quantifier": "every set of routes, set of unrouted customers in any iteration order, instance", "why_tests_cant": "All iteration orders of a set and all states.", "anchors": ["verypy/classic_heuristics/wren_holliday_sweep.py:complain_heuristic"]}
{"id": "C41", "title": "Recursive problem file listing lists each folder once", "statement": "With the recursive option each problem folder below the given one is searched exactly once.", "quantifier": "every directory tree of any depth", "why_tests_cant": "Trees of any depth; the duplication shows only in nested folders.", "anchors": ["verypy/shared_cli.py:get_a_problem_file_list"]}
{"id": "C42", "title": "Two-phase heuristic returns the better of the solutions of its phases", "statement": "The two phase heuristic, with any TSP routine that returns a closed tour over its nodes with its true cost no worse than the order given, ends with a solution that serves each customer exactly once and keeps C and L whenever each customer alone is feasible; it is the best of the solutions of both phases over all attempts, whatever the random shuffles give. Interrupts hand out a complete solution, and with repeated association the n-th best route is the one tried.", "quantifier": "every instance, seed rule, multipliers, association options, number of retries, outcome of the shuffles and TSP routine satisfying the contract", "why_tests_cant": "Universally quantified over random outcomes, TSP routines and instances; failures of the second phase depend on the instance.", "anchors": ["verypy/classic_heuristics/cmt_2phase.py:_phase_two", "verypy/classic_heuristics/cmt_2phase.py:cmt_2phase_init", "verypy/classic_heuristics/cmt_2phase.py:_routestates2solution"]}
{"id": "C43", "title": "Relaxed 3-opt* move changes the relaxed objective by exactly what it reports", "statement": "The 3-opt* move with the move checker of the Lagrangean relaxation heuristic never raises on a solution that starts and ends at the depot. A returned solution visits the same customers, starts and ends at the depot, and its relaxed objective (cost plus, for each route, the multiplier times the amount by which a limit is exceeded) is lower by exactly the reported delta. If nothing is returned then no reconnection of three edges improves the relaxed objective by more than the tolerance; with the best accepted, none is better than the one returned.", "quantifier": "every solution, symmetric distance matrix, demands, limits C and L, multipliers, strategy and delta asked for", "why_tests_cant": "All solutions, all ways to cut and reconnect, any number of routes between the cuts; penalties depend on which parts end up on the same route.", "anchors": ["verypy/classic_heuristics/lr3opt.py:_check_lr3opt_move", "verypy/local_search/solution_operators.py:do_3optstar_move"]}
{"id": "C44", "title": "Lagrangean relaxation heuristic returns complete feasible solutions and ends", "statement": "Started from any solution that starts and ends at the depot, with non-negative data and multipliers, the heuristic never raises; what it returns, also on an interrupt, visits exactly the customers of the initial solution, has no empty routes, and keeps C and L whenever each customer alone does (and always if the search ended on its own). With the postoptimization no feasible reconnection of three edges improves the returned routes by more than the tolerance. The heuristic returns after finitely many rounds.", "quantifier": "every instance, initial solution, multipliers, options, and number of rounds before an interrupt", "why_tests_cant": "Termination is about runs of any length; the multipliers grow without bound and the failures need a particular combination of limits.", "anchors": ["verypy/classic_heuristics/lr3opt.py:lr3opt_init", "verypy/classic_heuristics/lr3opt.py:_force_feasible", "verypy/classic_heuristics/lr3opt.py:_check_CL_constraints"]}
{"id": "C45", "title": "Improvement procedures of Wren and Holliday keep the solution and report what they did", "statement": "The procedures INSPECT, SINGLE, PAIR, DELETE and DISENTANGLE never raise on routes from depot to depot with true records; each customer stays on exactly one route, the records stay true, and the limits C and L stay kept when the triangle inequality holds and no demand is negative. INSPECT, SINGLE and PAIR report a success exactly if they changed something, and then the total cost is lower; without a success there is no improving move of their kind left. DELETE leaves fewer routes in use on success, applies the operation that improves the solution most, and changes nothing otherwise. DISENTANGLE does not add routes, does not raise the cost, and reports whether it changed something.", "quantifier": "every list of routes, instance, limits C and L, and angles of the customers", "why_tests_cant": "All routes and instances; absence of an improving move is a claim about all moves.", "anchors": ["verypy/classic_heuristics/wren_holliday_sweep.py:inspect_heuristic", "verypy/classic_heuristics/wren_holliday_sweep.py:single_heuristic", "verypy/classic_heuristics/wren_holliday_sweep.py:pair_heuristic", "verypy/classic_heuristics/wren_holliday_sweep.py:delete_heuristic", "verypy/classic_heuristics/wren_holliday_sweep.py:disentangle_heuristic"]}
{"id": "C46", "title": "Wren and Holliday heuristic returns the best of complete feasible solutions, also when interrupted, and ends", "statement": "On an instance with symmetric distances that satisfy the triangle inequality and customers that can each be served alone, the heuristic never raises; it ends; what it returns or hands out on an interrupt serves each customer once within C and L; it is the best of the solutions made from the sweeps, it is no worse than the solution of any of the sweeps, and with full convergence none of the procedures improves it further.", "quantifier": "every instance, order of the sweep, seed, direction, options, and moment of an interrupt between two stages", "why_tests_cant": "Termination is about runs of any length; interrupts at every moment; worse solutions come from a particular combination of capacities.", "anchors": ["verypy/classic_heuristics/wren_holliday_sweep.py:wren_holliday_init"]}
{"id": "C47", "title": "Gaskell's savings heuristic returns the best of its savings criteria", "statement": "Each savings function of Gaskell yields every pair of customers exactly once with the value of its criterion, largest first, ties broken by the shorter arc and then the larger numbers. The heuristic returns the first of the best (cost, or number of routes and then cost) of the solutions that the parallel savings algorithm gives for these lists; it serves each customer once, keeps C and L whenever each customer alone does, costs no more than serving each customer alone (unless the number of routes is minimised), and with the triangle inequality no two of its routes could be joined within the limits. An interrupt stops it with the best solution so far; an unknown method is a ValueError.", "quantifier": "every instance, limits C and L, option minimize_K, method, and moment of an interrupt", "why_tests_cant": "All instances; ties and the order of lists of any length, interrupts at every moment.", "anchors": ["verypy/classic_heuristics/gaskell_savings.py:gaskell_savings_init", "verypy/classic_heuristics/gaskell_savings.py:gaskell_lambda_savings_function", "verypy/classic_heuristics/gaskell_savings.py:gaskell_pi_savings_function"]}
{"id": "C48", "title": "Paessens' savings heuristic searches its parameters and improves every candidate", "statement": "The heuristic tries the parameter pairs of its strategy in order; M4 tries four, and then four around the best of these. It ends; each candidate is a solution of the parallel savings algorithm for the criterion with these parameters, each route improved (if asked) until no 3-opt move improves it by more than the tolerance, with no customer changing route. The first of the best candidates is returned; it serves each customer once, keeps C and L whenever each customer alone does, and is never worse than the Clarke and Wright solution if (1,0) is among the parameters. An interrupt stops it with the best solution so far.", "quantifier": "every instance, limits C and L, options, strategy or list of parameters, and moment of an interrupt", "why_tests_cant": "Any list of parameters and any instance; termination of the local search.", "anchors": ["verypy/classic_heuristics/paessens_savings.py:paessens_savings_init", "verypy/classic_heuristics/paessens_savings.py:paessens_savings_function"]}
{"id": "C49", "title": "Suppression of savings: each run forbids the best merges of the earlier ones", "statement": "The list of savings of each run has every pair once, largest first; negative savings count as zero, and exactly the pairs that headed the list of an earlier run are set to zero, also though the list is reused from run to run. There are min(L', number of pairs) runs and none raises. The first of the best solutions is returned; it serves each customer once, keeps C and L whenever each customer alone does, and with the triangle inequality it is never worse than the Clarke and Wright solution. An interrupt stops it with the best solution so far.", "quantifier": "every instance with at least one customer, number of runs, limits, option minimize_K, and moment of an interrupt", "why_tests_cant": "State shared between any number of runs, ties included.", "anchors": ["verypy/classic_heuristics/suppression_savings.py:suppression_savings_init", "verypy/classic_heuristics/suppression_savings.py:supression_savings_function"]}
{"id": "C50", "title": "Savings with 2-opt: the routes of Clarke and Wright, each 2-opt optimal", "statement": "The heuristic ends with a solution that serves each customer once, keeps C and L whenever each customer alone does, has as many routes as the Clarke and Wright solution, each with the same customers, costs no more, and no exchange of two edges, within a route or between two routes, improves it by more than the tolerance. An interrupt hands out a complete and feasible solution.", "quantifier": "every instance, limits C and L, option minimize_K, and moment of an interrupt", "why_tests_cant": "Local optimality is a claim about all moves; termination about runs of any length.", "anchors": ["verypy/classic_heuristics/cawlip_savings.py:cawlip_savings_init"]}
{"id": "C51", "title": "Mole and Jameson's insertion heuristic returns the best of its locally optimal solutions", "statement": "For each of its strain criteria the heuristic ends on any instance with a metric or with rounded distances, without an error; each configuration gives a solution that serves each customer once, keeps C and L whenever each customer alone does, has no more routes than the insertion procedure made, and (unless the number of routes is minimised) costs no more than serving each customer alone; no reversal of a part of a route and no move of one customer to another route within the limits improves it. The first of the best configurations (cost, or number of routes and then cost) is returned; the criterion 'all' is never worse than the others. An interrupt stops it with the best solution so far. An unknown criterion, or no customers, is an error.", "quantifier": "every instance with a metric or with rounded distances, limits C and L, option minimize_K, criterion, order of equal entries in the heap, and moment of an interrupt", "why_tests_cant": "All instances; termination of the search and of the insertion; absence of an improving move is a claim about all moves; interrupts at every moment.", "anchors": ["verypy/classic_heuristics/mole_jameson_insertion.py:mole_jameson_insertion_init", "verypy/classic_heuristics/mole_jameson_insertion.py:_refine_solution", "verypy/classic_heuristics/mole_jameson_insertion.py:_try_insert_2opt_and_update", "verypy/classic_heuristics/cheapest_insertion.py:cheapest_insertion_init"]}
{"id": "C52", "title": "Gillett and Miller's sweep returns a correct solution, the best of its sweeps", "statement": "With any routine for the tours, the heuristic raises nothing on an instance in which each customer alone keeps the limits, although the improvement of the emerging routes puts customers into routes and takes them out while the sweep runs. Whenever it ends, its solution serves each customer exactly once within C and L and none of the sweeps in the given directions from the given starts has a better one; an interrupt hands out nothing or such a solution. It ends if the routine does not ask more for a part of the customers, as with shortest tours and the triangle inequality. Without both limits the improvement has no effect. The neighbours looked at are all nodes by distance. Without points, or with a customer over the capacity first, it is a ValueError.", "quantifier": "every instance, sweep order, direction, start, routine for the tours, limits C and L, option minimize_K, and moment of an interrupt", "why_tests_cant": "Interplay of the sweep and the exchanges over runs of any length: termination, and no customer lost or served twice.", "anchors": ["verypy/classic_heuristics/gillet_miller_sweep.py:gillet_miller_init", "verypy/classic_heuristics/gillet_miller_sweep.py:_improvement_callback", "verypy/classic_heuristics/sweep.py:do_one_sweep", "verypy/classic_heuristics/sweep.py:sweep_init", "verypy/util.py:produce_nn_list"]}
{"id": "C53", "title": "Heuristic of Tyagi groups all customers within the limits and picks the grouping its criterion asks for", "statement": "The heuristic ends and returns a solution that serves each customer exactly once within C and L whenever each customer alone is feasible, with any TSP routine that returns a closed tour no longer than the order given; an interrupt hands out such a solution too. The grouping adds free customers to the current group until a limit would be exceeded, and then exchanges one customer of the group for a free one only if the group stays within the limits and has more demand (or is shorter, without a capacity). With a capacity the groupings with one customer on a route of its own that use no more routes are compared with the first one, and the one returned is the best of them by the selected criterion (least variance of the demands, then the largest mean; largest use of the capacity; penalty).", "quantifier": "every instance, limits C and L, TSP routine satisfying the contract, options, and moment of an interrupt after the first grouping", "why_tests_cant": "All instances; exchanges give customers back to lists they have been removed from, so completeness and termination are claims about histories of any length.", "anchors": ["verypy/classic_heuristics/tyagi_nearest_neighbor.py:tyagi_init", "verypy/classic_heuristics/tyagi_nearest_neighbor.py:route_end_interchange", "verypy/classic_heuristics/nearest_neighbor.py:nearest_neighbor_init"]}
{"id": "C54", "title": "The matching based savings algorithm ends with a solution whose routes cannot be joined with a saving", "statement": "With any exact solver for the integer program and any routine for the tours, the algorithm ends and returns a solution that serves each customer exactly once within C and L whenever each customer alone is feasible. Each step joins the two routes that save the most among those that fit together, as the routes of a matching of largest weight would; at the end no two routes fit together with a saving above the threshold. An interrupt hands out a solution too.", "quantifier": "every instance, limits C and L, threshold, solver, TSP routine, options, and moment of an interrupt", "why_tests_cant": "All instances; the solver and the routine are arbitrary; termination and the handler are claims about histories of any length.", "anchors": ["verypy/classic_heuristics/matchingvrp.py:mbsa_init", "verypy/classic_heuristics/matchingvrp.py:_mmp_solve", "verypy/classic_heuristics/matchingvrp.py:_calculate_savings", "verypy/classic_heuristics/matchingvrp.py:_geedy_merge"]}
{"id": "C55", "title": "The petal algorithm ends with a solution that is the best choice of its petals", "statement": "With any exact solver for the set covering problem and any routine for the tours, the petal algorithm ends on every instance in which each customer alone keeps the limits, without an error unless the solver runs out of time, and returns a solution that serves each customer exactly once within C and L. If the number of vehicles is neither limited nor minimised and there are no more than 10000 petals, the solution costs no more than any solution made of routes that the sweeps hand out (more generally: than any choice of the given petals). An interrupt of the user or the solver at any moment is passed on with a solution, or a part of one, within the limits that serves no customer twice.", "quantifier": "every symmetric instance (with the triangle inequality if infeasible intermediate solutions are allowed), limits C and L, sweep order, solver (which may answer differently in each call, or give up), TSP routine, generator of additional petals, options, and moment of an interrupt", "why_tests_cant": "Optimality over all choices of petals; the loop forbids earlier choices, adds petals and changes sets, so termination and completeness are claims about histories of any length and arbitrary solvers.", "anchors": ["verypy/classic_heuristics/petalvrp.py:petal_init", "verypy/classic_heuristics/petalvrp.py:_solve_set_covering", "verypy/classic_heuristics/petalvrp.py:_add_set_covering_constraints", "verypy/classic_heuristics/petalvrp.py:_generate_overconstrained_petals"]}
{"id": "C56", "title": "Customers served more than once are left on the cheapest of their routes", "statement": "Given routes that each visit no customer twice, the repair of the petal algorithm raises nothing, tells correctly whether every customer is served, and leaves each customer that was served several times on the one route where the visit costs least (the first such), customer after customer in the order in which the second visits are met. No served customer is lost, the order of the visits is kept, and with the triangle inequality the routes stay within C and L and their total cost does not rise.", "quantifier": "every list of routes with any number of multiply served customers, and every distance matrix", "why_tests_cant": "The positions of later visits shift with every deletion; the claim is about any number of overlapping deletions.", "anchors": ["verypy/classic_heuristics/petalvrp.py:_remove_multiserved"]}
{"id": "C57", "title": "The relaxed petals are groups of routes that improve the solution, and none of the simple ones is missed", "statement": "Given routes that serve no customer twice within C and L, the generator of relaxed petals of the petal algorithm always ends, raises nothing, and hands out groups of routes: the routes of a group can take the place of some of the given ones, serve the same customers within C and L, carry their true costs and make all the routes together cheaper. Each customer whose move to its cheapest place on another route keeps that route within the limits and saves something is among them; and if the move breaks a limit, so is each way to make room by discarding as few customers as needed (within the limit on their number) that can be redistributed within what is saved.", "quantifier": "every set of routes (any number and length), distance matrix with the triangle inequality, demands, limits C and L, and limit on the discarded customers", "why_tests_cant": "The search over the discarded customers has exponentially many branches; that it is exhaustive, ends and never loses or duplicates a customer is a claim about all of them.", "anchors": ["verypy/classic_heuristics/petalvrp.py:_generate_solution_relaxation_petals", "verypy/classic_heuristics/petalvrp.py:_regain_feasibility"]}
{"id": "C58", "title": "The heuristic of Fisher and Jaikumar ends with a solution, the best it has found, on the fewest vehicles", "statement": "With any exact solver for the generalised assignment problem (which may also give up) and any routine for the tours, the heuristic ends for all seed points and raises nothing; the solution it returns serves each customer exactly once within C and L, has no empty routes, and is the best of all the solutions met in the search (by the number of routes first if it is to be minimised); an interrupt hands out that solution too. If the number of routes is to be minimised, no solution has fewer; a solution is returned whenever there is one; a given number of vehicles is used.", "quantifier": "every instance, limits C and L, number of vehicles, solver (which may answer differently in each call, run out of time, be interrupted or give up), TSP routine, seed points for each number of vehicles and trial, options, and moment of an interrupt", "why_tests_cant": "Optimality over all packings of the customers into vehicles, arbitrary solvers, and a loop that changes weights, seeds and vehicles depending on the answers: claims about all histories.", "anchors": ["verypy/classic_heuristics/gapvrp.py:gap_init", "verypy/classic_heuristics/gapvrp.py:_solve_gap", "verypy/classic_heuristics/gapvrp.py:_decision_variables_to_assignments"]}
{"id": "C59", "title": "Several runs of an algorithm give the best of their solutions", "statement": "Run an algorithm n times on an instance: the solution returned is, in normal form, the first of the best solutions of the runs (by cost, or by the number of routes and then by cost if that is the objective), with its own length and cost, and the printed statistics (all served, capacity and length kept, number of routes, cost, length) are right for it. If the user interrupts a run, no further run is made and the statistics of the best solution so far, including that of the interrupted run, are printed and the solution is not lost. If no run finds a solution the program says so.", "quantifier": "every instance, number of runs, outcome of each run (a solution, none, an interrupt with or without a solution, an exception), objective and verbosity", "why_tests_cant": "The claim is about every sequence of outcomes of arbitrary algorithms, ties included, and every moment of an interrupt.", "anchors": ["verypy/shared_cli.py:read_and_solve_a_problem", "verypy/shared_cli.py:print_solution_statistics"]}
{"id": "C60", "title": "The batch solver reports each instance and algorithm truthfully", "statement": "Solve several instances with several algorithms: there is exactly one report for each, in order, up to and with the first the user interrupts; an algorithm that fails does not stop the others. Each report tells the right instance and algorithm, whether the reported solution is feasible, its own quality (length, or cost if asked for) and number of routes, and whether it was interrupted. Post-optimization with 2-opt and 3-opt ends, keeps the customers of each route together, never makes a solution longer, costlier or infeasible. The table at the end has one row for each instance reached, with the least number of routes and the quality for each algorithm.", "quantifier": "every list of instances, list of algorithms, outcome of each call, choice of options (output, cost or length, truncation, post-optimization, simulation) and moment of an interrupt", "why_tests_cant": "Arbitrary outcomes of arbitrary algorithms in any number and order; the post-optimization is a local search that must end and keep feasibility with respect to costs it does not see.", "anchors": ["verypy/VeRyPy.py:main", "verypy/shared_cli.py:print_solution_statistics"]}
{"id": "C61", "title": "Names select the heuristics they stand for", "statement": "Each name given to the lookup of heuristics is treated by itself, in order, and in any case of its letters. The standard abbreviation of a heuristic selects that heuristic alone; \"all\" selects every heuristic once, \"classical\" those of the literature. A heuristic that needs the integer programming solver is left out, with a warning, exactly if the solver is missing; a name that is not known selects nothing and is reported. The heuristics excluded on the command line are not run, all the others asked for are, in their order. The names the package displays for its heuristics are known names of them.", "quantifier": "every list of names (any text), list of names to exclude, and installation with or without the solver", "why_tests_cant": "The names are arbitrary texts; that nothing else is selected and that the names do not influence each other is a claim about all lists of them.", "anchors": ["verypy/__init__.py:get_algorithms", "verypy/__init__.py:algo_name_aliases", "verypy/VeRyPy.py:main"]}
{"id": "C62", "title": "The parallel construction heuristics build on the sequential ones and are not worse", "statement": "The parallel nearest neighbour heuristic, if the number of routes built at once is left open, gives the cheapest of the solutions with one route at a time, two at a time, and so on up to as many as the sequential heuristic needs, the first if several are equally cheap; asked for a single solution it gives that of the sequential heuristic. The parallel cheapest insertion builds as many routes at once as the sequential one needs, gives a complete solution that keeps the limits, costs no more than one trip for each customer and uses no fewer routes than the sequential one. Neither is worse than its sequential counterpart. A number of routes below two is refused, as is the objective of fewest routes by the nearest neighbours.", "quantifier": "every instance, limits C and L, number of routes built at once, and choice of options", "why_tests_cant": "The number of constructions depends on the result of the first; the comparison is over arbitrarily many solutions of arbitrary size.", "anchors": ["verypy/classic_heuristics/nearest_neighbor.py:get_pnn_algorithm", "verypy/classic_heuristics/nearest_neighbor.py:get_snn_algorithm", "verypy/classic_heuristics/cheapest_insertion.py:get_pi_algorithm", "verypy/classic_heuristics/cheapest_insertion.py:get_si_algorithm"]}
{"id": "C63", "title": "Every heuristic solves every regular instance", "statement": "Take an instance with distances as in the plane, customers at different places, nonnegative demands and limits, and each customer within the limits by itself. A call of any heuristic of the package as the command line makes it, with a single iteration or the default options, ends without an exception and returns a solution that starts and ends at the depot, serves each customer exactly once, has no empty routes and keeps C and L. Exceptions: those that do not support to minimise the number of routes refuse to do so, the sweep heuristics need the coordinates.", "quantifier": "every instance of any size, every heuristic, both options, and every routine for the travelling salesman problem that makes right tours", "why_tests_cant": "The claim joins twenty-one heuristics with their default parameters on all instances; tests run a few on a few.", "anchors": ["verypy/__init__.py:get_algorithms", "verypy/VeRyPy.py:main", "verypy/classic_heuristics/parallel_savings.py:get_ps_algorithm", "verypy/classic_heuristics/lr3opt.py:get_lr3opt_algorithm", "verypy/classic_heuristics/sweep.py:get_swp_algorithm", "verypy/classic_heuristics/wren_holliday_sweep.py:get_wh_algorithm"]}
{"id": "C64", "title": "What the command line reports for regular instances is a feasible solution", "statement": "On instances as in C63, the program that runs a heuristic several times returns the best of the solutions, in normal form, and it serves each customer exactly once within C and L. The batch with the short output prints exactly one line for each instance and heuristic, with a solution, and each line says that it is feasible.", "quantifier": "every number of runs, list of instances, list of heuristics, choice of options (post-optimization, truncated distances, service times)", "why_tests_cant": "The composition of all the heuristics with the drivers, for any number of files and runs.", "anchors": ["verypy/VeRyPy.py:main", "verypy/shared_cli.py:read_and_solve_a_problem", "verypy/__init__.py:get_algorithms"]}
{"id": "C65", "title": "A problem that is written to a file is read back as the same problem", "statement": "write_TSPLIB_file followed by read_TSPLIB_CVRP gives the distances of the selected nodes (or of all) in the order of the selection, exactly without a precision and within one unit of the scaled distance with one. If the name of the file ends with .vrp in any case, the demands and the capacity are read back too, and read_TSBLIB_additional_constraints gives the limit on the route cost; of numbers with a fraction the whole part is written. No route that is feasible becomes infeasible by this.", "quantifier": "every symmetric distance matrix of any size, every selection of nodes, all demands, capacities and limits, every precision, every way to print and read numbers that gives numbers back", "why_tests_cant": "The round trip concerns two parsers and a printer of texts of any length; tests read a few files.", "anchors": ["verypy/cvrp_io.py:write_TSPLIB_file", "verypy/cvrp_io.py:read_TSPLIB_CVRP", "verypy/cvrp_io.py:read_TSBLIB_additional_constraints"]}
{"id": "C66", "title": "The additional constraints of a problem file are found wherever they stand", "statement": "Read the additional constraints of a problem file: the limit on the route cost, the number of vehicles and the service time are those of the last line naming them, wherever in the file it stands, with any blanks around the colon; what is not named is reported as absent. A section with the service times of the nodes gives the service time if all customers have the same one, and is refused if they differ.", "quantifier": "every file text made of lines, every order and repetition of the fields, every choice of blanks, any number of service times", "why_tests_cant": "The files are arbitrary texts; a test reads a few of them.", "anchors": ["verypy/cvrp_io.py:read_TSBLIB_additional_constraints"]}
{"id": "C67", "title": "A problem file with coordinates is read as it is written", "statement": "Read a problem file that gives the places of the nodes: the result has the number of customers, the coordinates and demands of the nodes, the distances between them, the capacity and the kind of distances of the file, for any order of the fields in the head, any blanks, any numbers in any format the language reads, and anything after the end mark. Another depot than the first node becomes the first one in all of the lists and distances.", "quantifier": "every file text of this form: number of nodes, coordinates, demands, order and repetition of the fields, blanks, depot", "why_tests_cant": "Files of any length and form; a test reads a few of them.", "anchors": ["verypy/cvrp_io.py:read_TSPLIB_CVRP"]}
{"id": "C68", "title": "The generalized assignment heuristic gets a seed point for every vehicle", "statement": "Whatever the number of vehicles and the customer the sweep begins with, the method of cones of the heuristic of Fisher and Jaikumar gives as many seed points as there are vehicles, none of them farther from the depot than the customers, so that the search ends with a result. The method of large demands gives as many different customers, those above half of the capacity first, for every trial of the search.", "quantifier": "every set of customers with coordinates, all demands or distances that are not negative, every number of vehicles and every trial", "why_tests_cant": "The groups of cones split customers at fractions that depend on all the weights before them; the number of groups is a claim on all weights and starts.", "anchors": ["verypy/classic_heuristics/gapvrp.py:_sweep_seed_points", "verypy/classic_heuristics/gapvrp.py:_large_demand_seed_points", "verypy/classic_heuristics/gapvrp.py:gap_init"]}
{"id": "C69", "title": "The distances computed from coordinates are as the heuristics rely on", "statement": "The distances that calculate_D gives for points and any of the kinds of distances of the problem files are those of the plane or globe, rounded as the kind says, form a symmetric matrix without negative numbers and with zeros in the diagonal, satisfy the triangle inequality, and are positive for different places. Kinds that are not known are refused.", "quantifier": "every set of points with real coordinates, every kind of distances", "why_tests_cant": "The claims concern all triples of points with real coordinates and square roots, arc cosines and rounding; tests compare a few distances.", "anchors": ["verypy/cvrp_io.py:calculate_D", "verypy/cvrp_io.py:_att", "verypy/cvrp_io.py:_geo"]}
{"id": "C70", "title": "The problem files are found and solved in the natural order of their names", "statement": "Of a folder given to get_a_problem_file_list all files whose names end with .vrp, .tsp or .pickle in upper or lower case are found once, kind by kind, each kind sorted so that numbers in the names count by their value and text in any case. A list file gives the files named in its lines in their order, a problem file gives itself, and for anything else there is a message. Sorting names never raises an exception, and names that are equal in this order keep their places.", "quantifier": "all names of files, all contents of folders and list files, any number of paths", "why_tests_cant": "The order must hold for all names with any texts and numbers; tests sort a few names.", "anchors": ["verypy/shared_cli.py:get_a_problem_file_list", "verypy/util.py:natural_sort"]}
{"id": "C71", "title": "The exact routine finds the shortest tour", "statement": "On a symmetric distance matrix the routine for the travelling salesman problem that uses the integer programming solver returns a closed tour from the first of the given nodes that visits each of the others exactly once, the cost it returns is the length of this tour, and no other tour through the nodes is shorter. It does not matter whether the list of the nodes is closed by its first node. The constraints that it adds while the solver runs always exclude the candidate at hand and never a tour.", "quantifier": "every list of at least two different nodes, every symmetric matrix, every run of the solver: any candidates for which it calls back, in any order", "why_tests_cant": "The constraints depend on the candidates that the solver comes up with; that none of them cuts off the best tour is a claim about all tours and all candidates. The solver is a commercial program that the tests replace by small cases.", "anchors": ["verypy/tsp_solvers/tsp_solver_gurobi.py:solve_tsp_gurobi", "verypy/tsp_solvers/tsp_solver_gurobi.py:_subtour", "verypy/tsp_solvers/tsp_solver_gurobi.py:_subtourelim"]}
{"id": "C72", "title": "The routines that call other programs return a tour through all the nodes and its cost", "statement": "On a symmetric distance matrix, whatever right answer the external program for the travelling salesman problem writes, the routine around it returns a closed tour that visits each of the given nodes exactly once and starts at the depot if it is among them, and the cost it returns is the length of this tour; a heuristic that relies on this cost keeps the limit of the route length. The routine that chooses among the others by the number of the nodes does so too.", "quantifier": "every list of different nodes, every symmetric matrix, every accuracy, every order in which the program lists the tour and every text around it", "why_tests_cant": "The tour in the file may start at any node and in any direction, and the numbers in it are scaled and cut off; whether what is put together from it is a tour with its cost is a claim about all answers of a program that the tests do not have.", "anchors": ["verypy/tsp_solvers/tsp_solver_lkh.py:solve_tsp_lkh", "verypy/tsp_solvers/tsp_solver_acotsp.py:solve_tsp_acotsp", "verypy/tsp_solvers/tsp_solver_fast.py:solve_tsp_fast", "verypy/cvrp_io.py:write_TSPLIB_file"]}
{"id": "C73", "title": "The set of edges tells the routes and the cost of a solution", "statement": "For a symmetric problem, two complete solutions have the same set of edges exactly when they have the same routes up to the order of the routes and the direction of each; for other problems exactly when they have the same routes driven in the same direction. The set has the steps of the solution and nothing else, and the sum of the distances over it is the cost of the solution.", "quantifier": "every pair of complete solutions without empty routes, any number of customers and routes, every distance matrix", "why_tests_cant": "That no two different solutions have the same set is a claim about all pairs of solutions; tests compare a few sets.", "anchors": ["verypy/util.py:sol2edgeset"]}
{"id": "C74", "title": "The naive operators find the moves that they are named after", "statement": "On any solution the naive 2-opt, one point, two point, relocate, exchange and 2-opt* moves return a neighbour of the named kind with its exact change of the cost, better than the given bound by more than the tolerance and within the limits, or nothing only if there is none; with the best accept strategy no other is better by more than the tolerance.", "quantifier": "every solution, every distance matrix and demands without negative numbers, every limit, strategy and bound", "why_tests_cant": "That nothing is missed is a claim about all solutions and all their neighbours; these operators are themselves what the tests compare with.", "anchors": ["verypy/local_search/naive_implementations.py:do_naive_2opt_move", "verypy/local_search/naive_implementations.py:do_naive_1point_move", "verypy/local_search/naive_implementations.py:do_naive_2point_move", "verypy/local_search/naive_implementations.py:do_naive_relocate_move", "verypy/local_search/naive_implementations.py:do_naive_exchange_move", "verypy/local_search/naive_implementations.py:do_naive_2optstar_move", "verypy/local_search/naive_implementations.py:_apply_as_intra_route"]}
{"id": "C75", "title": "The naive local search ends in a local optimum", "statement": "For any list of the naive operators the naive local search ends. The result visits the same customers with as many routes, is not longer, keeps the limits if the given solution did, and none of the operators improves it, unless a greatest number of iterations was given; then at most so many improvements are made.", "quantifier": "every solution, every list of the operators, every distance matrix and demands without negative numbers, every limit on the iterations", "why_tests_cant": "The search makes any number of improvements in any order of the operators; that it ends and where is a claim about all such histories.", "anchors": ["verypy/local_search/naive_implementations.py:do_naive_local_search"]}
{"id": "C76", "title": "The fast operators for a route and the naive ones agree", "statement": "For a solution within the limits a naive 2-opt, relocate or exchange move finds nothing exactly when the fast operator of the same name finds nothing on any of the routes, whatever strategies the two use. So the local optima of the fast and the naive operators are the same, though the fast ones know no limits.", "quantifier": "every solution that visits no customer twice, every symmetric (for 2-opt) or any (otherwise) distance matrix without negative numbers, every limit, both strategies", "why_tests_cant": "The tests compare the two kinds of operators on random routes; that they agree is a claim about all solutions.", "anchors": ["verypy/local_search/intra_route_operators.py:do_2opt_move", "verypy/local_search/intra_route_operators.py:do_relocate_move", "verypy/local_search/intra_route_operators.py:do_exchange_move", "verypy/local_search/naive_implementations.py:do_naive_2opt_move", "verypy/local_search/naive_implementations.py:do_naive_relocate_move", "verypy/local_search/naive_implementations.py:do_naive_exchange_move"]}
{"id": "C77", "title": "The routes of a sweep serve neighbours", "statement": "Each route of a sweep, from any start and in either direction, serves a run of customers that follow each other by their angles as seen from the depot, and the run is as long as the capacity lets it be. So no two routes interlace around the depot. Trying all starts in both directions, the sweep heuristic returns the best of the solutions made of such runs.", "quantifier": "every instance and every order of the customers around the depot, every start, both directions, every routine for the tours", "why_tests_cant": "Tests look at the cost of some solutions; that routes are sectors, for every instance and start, is a claim about all the histories of the sweep, and it depends on which limits are set.", "anchors": ["verypy/classic_heuristics/sweep.py:do_one_sweep", "verypy/classic_heuristics/sweep.py:sweep_init", "verypy/classic_heuristics/sweep.py:get_sweep_from_cartesian_coordinates", "verypy/classic_heuristics/sweep.py:_ensure_L_feasible"]}
{"id": "C78", "title": "The fast operators for two routes and the naive ones agree", "statement": "For a solution within the limits the naive one point move finds nothing exactly when the fast relocation finds nothing on any route and the fast one point move finds nothing between any two routes. The naive two point move finds nothing exactly when the fast exchange and the fast two point move find nothing. So the fast operators have the local optima of the plain definition.", "quantifier": "every solution that visits no customer twice and keeps the limits, all distances with the triangle inequality (one point) or any (two point), all strategies and limits", "why_tests_cant": "The tests compare the operators on some random routes; that they agree on every solution is a claim about all of them, and it depends on tolerances that random tests do not hit.", "anchors": ["verypy/local_search/inter_route_operators.py:do_1point_move", "verypy/local_search/inter_route_operators.py:do_2point_move", "verypy/local_search/intra_route_operators.py:do_relocate_move", "verypy/local_search/intra_route_operators.py:do_exchange_move", "verypy/local_search/naive_implementations.py:do_naive_1point_move", "verypy/local_search/naive_implementations.py:do_naive_2point_move"]}
{"id": "C79", "title": "What an interrupt of the route-first heuristic hands over", "statement": "If the user interrupts the partition of the giant tour, the interrupt carries a solution with all the customers, each one once, whatever the time of the interrupt. The solution follows the giant tour: it is either one route of all the customers or two or more routes each of which keeps the capacity limit. As long as no route that keeps the limits has as many customers as there are rows of the table still to fill, it is the one route.", "quantifier": "every giant tour, all demands, limits and distances, every TSP routine for which a further node does not shorten a route, and every time of the interrupt, also between the two writes of a table entry", "why_tests_cant": "A test cannot send a signal between two chosen statements; the times of an interrupt are as many as the entries of a quadratic table.", "anchors": ["verypy/classic_heuristics/rfcs.py:_partition_to_routes_with_cost_matrix"]}
{"id": "C80", "title": "A random problem can be served", "statement": "generate_CVRP with N customers and the capacity C, with both values of regular, returns for all random numbers N+1 points and N+1 demands; the depot is at the origin and has the demand 0, and each customer asks for at least min(1, C) and at most C, so no customer is too large for a vehicle and the demands sum up to at most N times C. A demand drawn between 1 and C is kept. The distances are a symmetric matrix of whole numbers, zero on the diagonal, each at most 1/2 away from the distance of the two points in the plane, and a detour is at most 1 shorter than the direct way. With regular=True all customers stand on a circle with the radius R, and the distances are the same when each customer moves to the place of the next one. The random problem of the command line (shared_cli.py with a number in the place of a file) has whole demands from 1 to 100 for the customers. The claims that the size of the problem is the number of its places, as for a problem from a file, and that the distances are exact, as the command line tells the algorithm, are false.", "quantifier": "all numbers of customers, capacities (real numbers), radii, both values of regular and all sequences of random numbers", "why_tests_cant": "The random numbers are different in each run; the tests use a few random problems and do not look at the problem itself.", "anchors": ["verypy/cvrp_io.py:generate_CVRP", "verypy/cvrp_io.py:calculate_D", "verypy/shared_cli.py:cli"]}
{"id": "C81", "title": "The command line of the algorithms does what its arguments ask for", "statement": "For every algorithm, cli reads the options -v, -n, -1, -t, -l and -b in front of the last argument in any order and any number; the last value given for an option counts, and an unknown target of -b is reported and changes nothing. If the last argument is a file or a folder, its files are solved one after the other, the algorithm is told whether a single iteration is wanted and whether the vehicles count, and for each file the first best solution of the given number of runs is shown. If it is a number, the same is done with a random problem. If it is none of these, the usage is shown and nothing is solved. The claims that the usage is shown only then, that an interrupt of the user is passed on, that the program tells of a missing solution, and that a value is never taken for an option are false.", "quantifier": "all lists of options, texts of the values, program names, files and folders, random problems, algorithms (which may end differently in each call)", "why_tests_cant": "There are no tests of the command line; the claim ranges over all sequences of options and all outcomes of the runs.", "anchors": ["verypy/shared_cli.py:cli", "verypy/shared_cli.py:read_and_solve_a_problem", "verypy/shared_cli.py:get_a_problem_file_list"]}
{"id": "C82", "title": "The heuristics on rounded distances", "statement": "The kinds of distances that round (EUC_2D, CEIL_2D, FLOOR_2D, ATT, GEO) give a symmetric matrix of whole numbers where a detour may be shorter than the direct way, but by no more than 1. On such distances, too, every heuristic that does not call the integer programming solver returns a solution that visits each customer exactly once and keeps the capacity and the length limit, if each customer alone can be served. So does a local search that starts from a solution that keeps the limits.", "quantifier": "every instance whose customers can be served alone, all distances that a rounding kind gives (without the triangle inequality), all capacities and limits, both values of single and minimize_K where supported", "why_tests_cant": "The bundled instances are few; whether the rounding of a distance can break the limits or lose a customer is a claim about all the places of the customers.", "anchors": ["verypy/cvrp_io.py:calculate_D", "verypy/classic_heuristics/nearest_neighbor.py:nearest_neighbor_init", "verypy/classic_heuristics/tyagi_nearest_neighbor.py:tyagi_init", "verypy/classic_heuristics/mole_jameson_insertion.py:mole_jameson_insertion_init", "verypy/local_search/__init__.py:do_local_search", "verypy/local_search/inter_route_operators.py:do_chain_move", "verypy/VeRyPy.py:main", "verypy/shared_cli.py:cli"]}
{"id": "C83", "title": "The command line of the TSP routines prints a tour and its cost", "statement": "For every TSP routine (ropt, gurobi, lkh, acotsp, fast), calling the script with one argument that is a file reads the file, solves the tour over all its nodes and prints the tour and its cost. The tour starts and ends at the first node and visits each other node once, the cost is the one of the printed tour with the distances of the file and the one that the routine reported, and the program ends without an error. With any other arguments the usage is printed and nothing is solved.", "quantifier": "all command lines, all files with the same distance both ways and two nodes or more, all answers of the solver and of the other programs that are right", "why_tests_cant": "There are no tests of the command line, and the other programs are not installed where the tests run; the claim ranges over all their right answers and all matrices.", "anchors": ["verypy/shared_cli.py:tsp_cli", "verypy/tsp_solvers/tsp_solver_ropt.py:solve_tsp_ropt", "verypy/tsp_solvers/tsp_solver_gurobi.py:solve_tsp_gurobi", "verypy/tsp_solvers/tsp_solver_lkh.py:solve_tsp_lkh", "verypy/tsp_solvers/tsp_solver_acotsp.py:solve_tsp_acotsp", "verypy/tsp_solvers/tsp_solver_fast.py:solve_tsp_fast", "verypy/util.py:objf"]}
{"id": "C84", "title": "The command line of the program means what its options say", "statement": "The options of VeRyPy can be given in any order, the last value of an option counts (except for those that collect values), and one path is asked for. Unknown options, missing values and values that are not among the choices are refused, help is given when asked for. If the list of the heuristics is asked for, or no heuristic is named, nothing is solved and each available heuristic is listed once, in the order of the abbreviations, each of which selects it; the program then ends with success. Otherwise each selected heuristic is called on each instance found, in this order, with the asked single mode and objective, and reported with the asked output, quality, distances and post-optimization. Names that are not known are reported and ignored. A simulation calls nothing and reports no solutions.", "quantifier": "every list of words of the command line (each option and value in a word of its own), whether passed to main or taken from the process, every set of instances found and every outcome of every call", "why_tests_cant": "All combinations and orders of the options, with any number of instances and heuristics and any outcome of the calls, cannot be enumerated.", "anchors": ["verypy/VeRyPy.py:main", "verypy/VeRyPy.py:_build_algorithm_help"]}
{"id": "C85", "title": "The table of the routes agrees with the solution and the verdicts", "statement": "With the option that shows the routes, the statistics of a solution have a row for each of its routes, in the order of the solution and numbered from one. A row shows the cost and the length of the route, rounded to two digits, its load if there is a capacity, and the route. The number of routes printed above is the number of rows. The customers of the rows, their loads and their costs give the verdicts that are printed: all served, capacity kept, length kept. The loads add up to the demand of all customers if each is served, and the costs and lengths add up to the totals in the last line.", "quantifier": "all solutions, distances with and without a service time, demands, capacities and limits", "why_tests_cant": "There are no tests of the statistics; that two separate computations, the check of the solution and the table, agree is a claim about all solutions.", "anchors": ["verypy/shared_cli.py:print_solution_statistics", "verypy/cvrp_ops.py:validate_solution_feasibility", "verypy/util.py:sol2routes"]}
