import Verif.Model.Sweep
import Verif.Model.RouteData
import Mathlib.Algebra.Order.Floor.Ring
import Mathlib.Data.Rat.Floor

/-! # Model of `verypy/classic_heuristics/petalvrp.py`

The solver of the integer programmes (Gurobi) is a parameter: a function of the number of the call and
of the programme, so that it may answer the same programme differently, run out of time or be
interrupted at any call. Its answers are exact (the code reads the floating point values of the
variables as truth values). The generator of the relaxed petals is a parameter of the main loop.

An empty list of chosen petals and the answer `None` of `_solve_set_covering` are not told apart, as the
code only asks `not routes_with_idxs`. -/

namespace Verif

/-- An entry of a `PetalSet`, petalvrp.py 281. The three parallel lists are a list of entries. -/
structure Petal where
  nodes : List ℕ
  route : List ℕ
  cost : ℚ
  deriving DecidableEq, Repr

/-! ## The set covering problem -/

/-- The programme of `_solve_set_covering`, petalvrp.py 434-494: the node sets and the costs of the
petals, the forbidden combinations and the number of vehicles. -/
structure ScpModel where
  N : ℕ
  sets : List (List ℕ)
  costs : List ℚ
  forbidden : List (List ℕ)
  K : Option ℕ

/-- The constraints of the programme, `_add_set_covering_constraints`, petalvrp.py 377-404, for values of
the variables. `quicksum(X_j)` is read as the sum of the variables. -/
structure ScpModel.Sat (M : ScpModel) (X : List Bool) : Prop where
  vars : X.length = M.sets.length
  c1 : ∀ i, 1 ≤ i → i < M.N → ((M.sets.zip X).filter fun e => decide (i ∈ e.1) && e.2).length = 1
  c2 : ∀ fc ∈ M.forbidden,
    (X.zipIdx.map fun e => if e.1 then (if e.2 ∈ fc then (1 : ℤ) else -1) else 0).sum ≤ (fc.length : ℤ) - 1
  c3 : 0 < M.K.getD 0 → X.count true ≤ M.K.getD 0

/-- The objective of the programme, petalvrp.py 451 and 479-487. -/
def ScpModel.objective (M : ScpModel) (X : List Bool) : ℚ :=
  ((M.costs.zip X).map fun e => if e.2 then e.1 else 0).sum

/-- How a run of the solver ends, petalvrp.py 426-432 and 505-514; `other` is any status that is not
mentioned. -/
inductive MipStatus where
  | optimal (X : List Bool)
  | infeasible
  | timeLimit
  | interrupted
  | other
  deriving DecidableEq, Repr

/-- The solver: the number of the call and the programme are given. See petalvrp.py 494. -/
abbrev MipSolver := ℕ → ScpModel → MipStatus

/-- The forbidden combinations by the indices of the variables, petalvrp.py 454-460. -/
def ptForbidden (nactive : ℕ) (forbidden : List (List ℤ)) : List (List ℕ) :=
  (forbidden.filter fun fc => fc.all fun i => decide (i < nactive)).map fun fc =>
    fc.map fun i => if 0 ≤ i then i.toNat else (-i - 1).toNat + nactive

/-- The petals in the order of the variables, each with the index that petalvrp.py 367-374 gives it. -/
def ptEntries (active relaxed : List Petal) : List (Petal × ℤ) :=
  active.zipIdx.map (fun e => (e.1, (e.2 : ℤ))) ++ relaxed.zipIdx.map (fun e => (e.1, -(e.2 : ℤ) - 1))

/-- `_decision_variables_to_petals`, petalvrp.py 357-375. That the loop ends at the last petal is the
end of the shorter list. -/
def ptChosen (active relaxed : List Petal) (X : List Bool) : List (List ℕ × ℤ) :=
  (((ptEntries active relaxed).zip X).filter fun e => e.2).map fun e => (e.1.1.route, e.1.2)

/-- The programme, petalvrp.py 444-458. -/
def ptModel (N : ℕ) (active relaxed : List Petal) (forbidden : List (List ℤ)) (K : Option ℕ) : ScpModel :=
  { N := N
    sets := (active ++ relaxed).map (·.nodes)
    costs := (active ++ relaxed).map (·.cost)
    forbidden := ptForbidden active.length forbidden
    K := K }

/-- The result of `_solve_set_covering`: the chosen routes with their indices and whether the
constraints hold, or an exception. See petalvrp.py 495-514. -/
inductive ScpAnswer where
  | ok (routes_with_idxs : List (List ℕ × ℤ)) (feasible : Bool)
  | interrupted
  | gurobiError
  deriving DecidableEq, Repr

/-- `_solve_set_covering`, petalvrp.py 434-514, with `_relax_customer_constraints_with_feasRelax`,
petalvrp.py 407-432; `opt` and `rlx` are the two runs of the solver. -/
def solve_set_covering (opt rlx : MipSolver) (call N : ℕ) (active relaxed : List Petal)
    (forbidden : List (List ℤ)) (allow_infeasible : Bool) (K : Option ℕ) : ScpAnswer :=
  match opt call (ptModel N active relaxed forbidden K) with
  | .optimal X => .ok (ptChosen active relaxed X) true
  | .timeLimit => .gurobiError
  | .interrupted => .interrupted
  | .infeasible =>
    if allow_infeasible then
      match rlx call (ptModel N active relaxed forbidden K) with
      | .optimal X => .ok (ptChosen active relaxed X) false
      | .timeLimit => .gurobiError
      | .interrupted => .interrupted
      | _ => .ok [] false
    else .ok [] false
  | .other => .ok [] false

/-! ## Customers served more than once -/

/-- The visits of a node, petalvrp.py 541-547: the list `served[n]`. -/
def msVisits (routes : List (List ℕ)) (n : ℕ) : List (ℕ × ℕ) :=
  routes.zipIdx.flatMap fun r => (r.1.zipIdx.filter fun v => decide (v.1 = n)).map fun v => (r.2, v.2)

/-- The customers in the order in which they are met a second time, petalvrp.py 550-551. -/
def msMulti (routes : List (List ℕ)) : List ℕ :=
  let l := routes.flatten.filter fun n => decide (n ≠ 0)
  (l.zipIdx.filter fun e => decide ((l.take e.2).count e.1 = 1)).map (·.1)

/-- `nserved`, petalvrp.py 543-549. -/
def msServed (routes : List (List ℕ)) : ℕ :=
  let l := routes.flatten.filter fun n => decide (n ≠ 0)
  1 + (l.zipIdx.filter fun e => decide ((l.take e.2).count e.1 = 0)).length

/-- The change of the cost when the visit is left out, petalvrp.py 559-562. For the first node of a
route the index `ni-1` is that of the last node. -/
def msDelta (D : ℕ → ℕ → ℚ) (routes : List (List ℕ)) (ri ni : ℕ) : Py ℚ := do
  let r ← idx routes ri
  let nfrom ← if ni = 0 then idxNeg r 1 else idx r (ni - 1)
  let nvia ← idx r ni
  let nto ← idx r (ni + 1)
  pure (D nfrom nto - D nfrom nvia - D nvia nto)

/-- The visit to keep, petalvrp.py 556-565; the state is `best_delta` with `keep_this`. -/
def msKeep (D : ℕ → ℕ → ℚ) (routes : List (List ℕ)) :
    List (ℕ × ℕ) → Option (ℚ × ℕ × ℕ) → Py (Option (ℚ × ℕ × ℕ))
  | [], best => .ok best
  | (ri, ni) :: sl, best =>
    match msDelta D routes ri ni with
    | .error e => .error e
    | .ok delta =>
      match best with
      | none => msKeep D routes sl (some (delta, ri, ni))
      | some (best_delta, keep) =>
        if best_delta < delta then msKeep D routes sl (some (delta, ri, ni))
        else msKeep D routes sl (some (best_delta, keep))

/-- The other visits are removed and the positions of the customers still to come are updated,
petalvrp.py 566-578. -/
def msDelete (kri kni : ℕ) : List (ℕ × ℕ) → List (List ℕ) → List (List (ℕ × ℕ)) →
    Py (List (List ℕ) × List (List (ℕ × ℕ)))
  | [], routes, later => .ok (routes, later)
  | (rri, rni) :: sl, routes, later =>
    if kri = rri ∧ kni = rni then msDelete kri kni sl routes later
    else
      match idx routes rri with
      | .error e => .error e
      | .ok r =>
        if rni < r.length then
          msDelete kri kni sl (routes.set rri (r.eraseIdx rni))
            (later.map fun slu => slu.map fun p => if p.1 = rri ∧ rni < p.2 then (p.1, p.2 - 1) else p)
        else .error .indexError

/-- The loop over the customers served more than once, petalvrp.py 553-578; the first argument is the
number of customers to come. -/
def msLoop (D : ℕ → ℕ → ℚ) : ℕ → List (List (ℕ × ℕ)) → List (List ℕ) → Py (List (List ℕ))
  | 0, _, routes => .ok routes
  | _, [], routes => .ok routes
  | k + 1, sl :: later, routes =>
    match msKeep D routes sl none with
    | .error e => .error e
    | .ok none => msLoop D k later routes
    | .ok (some (_, kri, kni)) =>
      match msDelete kri kni sl routes later with
      | .error e => .error e
      | .ok (routes, later) => msLoop D k later routes

/-- `_remove_multiserved`, petalvrp.py 538-579; the routes are changed in place, so they are part of the
answer. `N` is `len(D)`. All the nodes are less than `N`. -/
def remove_multiserved (N : ℕ) (D : ℕ → ℕ → ℚ) (routes : List (List ℕ)) : Py (List (List ℕ) × Bool) :=
  let sls := (msMulti routes).map (msVisits routes)
  match msLoop D sls.length sls routes with
  | .error e => .error e
  | .ok routes' => .ok (routes', decide (msServed routes = N))

/-! ## The main loop -/

/-- What does not change during the main loop, petalvrp.py 581-589 and 703-709. `gen` is the generator
of the relaxed petals, petalvrp.py 950-961 and 188-280, a function of the routes. `signal` tells whether
the user interrupts the second `try` block in an iteration, and whether this happens after the best
solution was stored. `d`, `C` and `L` only matter to the generators. -/
structure PtArgs where
  N : ℕ
  D : ℕ → ℕ → ℚ
  K : Option ℕ
  minimize_K : Bool
  relaxe : Bool
  required : Option ℤ
  min_iterations : Option ℤ
  restricted : List Petal
  reduced : List Petal
  extended : List Petal
  opt : MipSolver
  rlx : MipSolver
  gen : List (List ℕ) → Py (List RouteData)
  signal : ℕ → Option Bool

/-- The variables of the main loop, petalvrp.py 711-740. `active_ptls` and `ptls_in_use_set` are left
out: the active petals are those of `ptl_set` whenever they are used. The infinite value of
`best_sol_f` is `none`. `calls` counts the calls of the solver; it is not in the code. -/
structure PtState where
  ptl_set : ℕ
  max_used : ℕ
  relaxed : List Petal
  seen : List (List ℕ)
  cnt : ℕ
  K_constraint : Option ℕ
  forbidden : List (List ℤ)
  best_feasible : Bool
  best : Option (List ℕ)
  best_f : Option ℚ
  best_K : ℕ
  allow_infeasible : Bool
  iteration : ℕ
  calls : ℕ

/-- The active petals of a set, petalvrp.py 759-761, 784-787 and 813-816: 1 is `RESTRICTED`, 2 is
`REDUCED`, 3 is `EXTENDED`. -/
def ptActive (a : PtArgs) (ptl_set : ℕ) : List Petal :=
  if ptl_set = 1 then a.restricted
  else if ptl_set = 2 then a.restricted ++ a.reduced
  else a.restricted ++ a.reduced ++ a.extended

/-- The petals that become known when a set comes into use, petalvrp.py 758, 783 and 812. -/
def ptOwn (a : PtArgs) (ptl_set : ℕ) : List Petal :=
  if ptl_set = 1 then a.restricted else if ptl_set = 2 then a.reduced else a.extended

/-- Truth of an optional count. See petalvrp.py 695-696. -/
def ptTrue (K : Option ℕ) : Bool := decide (0 < K.getD 0)

/-- The variables that the set covering phase changes; `stop` tells of an exception, `some true` is an
interrupt, `some false` an error of the solver. See petalvrp.py 742-755. -/
structure PtCov where
  ptl_set : ℕ
  routes_with_idxs : List (List ℕ × ℤ)
  feasible : Bool
  seen : List (List ℕ)
  calls : ℕ
  stop : Option Bool

/-- The set covering problem is solved with the petals of the set, petalvrp.py 756-767, 780-793 and
809-822. (Adding the known petals again changes nothing.) -/
def ptStage (a : PtArgs) (s : PtState) (k : ℕ) (c : PtCov) : PtCov :=
  let c := { c with ptl_set := k, seen := c.seen ++ (ptOwn a k).map Petal.route, calls := c.calls + 1 }
  match solve_set_covering a.opt a.rlx c.calls a.N (ptActive a k) s.relaxed s.forbidden
      s.allow_infeasible s.K_constraint with
  | .ok r f => { c with routes_with_idxs := r, feasible := f }
  | .interrupted => { c with stop := some true }
  | .gurobiError => { c with stop := some false }

/-- The set covering phase, petalvrp.py 746-832. `len(routes_with_idxs[0])` is the length of the pair of
a route and its index. -/
def ptCover (a : PtArgs) (s : PtState) : PtCov :=
  let c : PtCov := { ptl_set := s.ptl_set, routes_with_idxs := [], feasible := false, seen := s.seen,
                     calls := s.calls, stop := none }
  let c := if s.ptl_set = 1 ∧ a.restricted ≠ [] then ptStage a s 1 c else c
  let c :=
    if c.stop = none ∧ ((c.routes_with_idxs = [] ∧ c.ptl_set = 1) ∨ c.ptl_set = 2) then ptStage a s 2 c
    else c
  if c.stop = none ∧ (c.routes_with_idxs = [] ∨ (ptTrue a.K = true ∧ a.K.getD 0 < 2) ∨ c.ptl_set = 3) then
    ptStage a s 3 c
  else c

/-- How the algorithm ends. See petalvrp.py 984-991. -/
inductive PtEnd where
  | ret (best : Option (List ℕ))
  | interrupt (best : Option (List ℕ))
  | gurobiError
  deriving DecidableEq, Repr

/-- `better_or_same`, petalvrp.py 897-900 with `is_better_sol`, util.py 67-79. -/
def ptBetterOrSame (s : PtState) (minimize_K : Bool) (f : ℚ) (k : ℕ) : Bool :=
  match s.best_f with
  | none => if minimize_K then decide (k ≤ s.best_K) else true
  | some bf => is_better_sol (some bf) (some s.best_K) (some f) (some k) minimize_K
      || (decide (k = s.best_K) && decide (f = bf))

/-- The last two conditions of petalvrp.py 932 and 938: a minimal number of iterations is asked
for and not yet done. -/
def ptMore (a : PtArgs) (iteration : ℕ) : Bool :=
  match a.min_iterations with
  | none => false
  | some m => decide (m ≠ 0) && decide ((iteration : ℤ) < m)

/-- No solution was found, petalvrp.py 864-873. -/
def ptNone (s : PtState) : PtState ⊕ Option (List ℕ) :=
  if s.ptl_set = 1 then .inl { s with ptl_set := 2 }
  else if s.ptl_set = 2 then .inl { s with ptl_set := 3 }
  else if ptTrue s.K_constraint then
    .inl { s with ptl_set := 1, K_constraint := s.K_constraint.map (· + 1) }
  else .inr s.best

/-- The best solution so far is stored or the search is widened, petalvrp.py 902-935. The flag tells
that the loop is left. -/
def ptUpdate (a : PtArgs) (s : PtState) (sol : List ℕ) (f : ℚ) (k : ℕ) (feasible : Bool) : PtState × Bool :=
  let bos := ptBetterOrSame s a.minimize_K f k
  if (s.best_feasible && feasible && bos) || (!s.best_feasible && (feasible || bos)) then
    ({ s with best := some sol, best_f := some f, best_K := k, best_feasible := feasible }, false)
  else if s.ptl_set = 1 then ({ s with ptl_set := 2 }, false)
  else if ((!s.best_feasible || decide (s.cnt ≤ 10000)) && decide (s.ptl_set = 2))
      || decide (s.ptl_set < s.max_used) then ({ s with ptl_set := 3 }, false)
  else if !s.best_feasible && ptTrue s.K_constraint then
    ({ s with ptl_set := 1, K_constraint := s.K_constraint.map (· + 1) }, false)
  else if !ptMore a s.iteration && a.required.isNone then (s, true)
  else (s, false)

/-- The required number of iterations is done, petalvrp.py 937-939. -/
def ptEnough (a : PtArgs) (iteration : ℕ) : Bool :=
  match a.required with
  | none => false
  | some r => decide (r ≠ 0) && decide (r ≤ (iteration : ℤ)) && !ptMore a iteration

/-- The petals that are new are stored, petalvrp.py 969-980. -/
def ptStore (s : PtState) : List RouteData → Py PtState
  | [] => .ok s
  | rd :: rds =>
    match route_to_nodeset rd.route, rd.normalize with
    | .error e, _ => .error e
    | _, .error e => .error e
    | .ok ns, .ok rd =>
      if 2 < rd.route.length ∧ rd.route ∉ s.seen then
        ptStore { s with relaxed := s.relaxed ++ [{ nodes := ns, route := rd.route, cost := rd.cost }]
                         seen := s.seen ++ [rd.route], cnt := s.cnt + 1 } rds
      else ptStore s rds

/-- The improvement phase, petalvrp.py 945-980. -/
def ptImprove (a : PtArgs) (s : PtState) (routes : List (List ℕ)) : Py PtState :=
  if a.relaxe then
    match a.gen routes with
    | .error e => .error e
    | .ok rds => ptStore s rds
  else .ok s

/-- The rest of an iteration once a solution is found, petalvrp.py 876-989. -/
def ptFound (a : PtArgs) (interrupted : Bool) (s : PtState) (routes : List (List ℕ)) (idxs : List ℤ)
    (feasible : Bool) : Py (PtState ⊕ PtEnd) :=
  let sol := (routes2sol routes).getD []
  let s := { s with forbidden := s.forbidden ++ [idxs] }
  let u := ptUpdate a s sol (objf sol a.D) (sol.count 0 - 1) feasible
  if a.signal s.iteration = some true then .ok (.inr (.interrupt u.1.best))
  else if u.2 || ptEnough a s.iteration then
    .ok (.inr (if interrupted then .interrupt u.1.best else .ret u.1.best))
  else if interrupted then .ok (.inr (.interrupt u.1.best))
  else
    match ptImprove a u.1 routes with
    | .error e => .error e
    | .ok s => .ok (.inl s)

/-- The rest of an iteration if there is no solution; `continue` ends the loop after an interrupt,
petalvrp.py 864-874 and 988-989. -/
def ptMissing (interrupted : Bool) (s : PtState) : PtState ⊕ PtEnd :=
  match ptNone s with
  | .inr b => .inr (.ret b)
  | .inl s => if interrupted then .inr (.interrupt s.best) else .inl s

/-- What follows the set covering phase, petalvrp.py 834-989; `c.stop` is not an error of the solver. -/
def ptAfter (a : PtArgs) (c : PtCov) (s : PtState) : Py (PtState ⊕ PtEnd) :=
  let interrupted := decide (c.stop = some true)
  if a.signal s.iteration = some false then .ok (.inr (.interrupt s.best))
  else
    let routes := c.routes_with_idxs.map (·.1)
    let idxs := c.routes_with_idxs.map (·.2)
    if c.routes_with_idxs = [] ∨ idxs ∈ s.forbidden then .ok (ptMissing interrupted s)
    else if !c.feasible && !interrupted then
      match remove_multiserved a.N a.D routes with
      | .error e => .error e
      | .ok (routes, feasible) => ptFound a interrupted s routes idxs feasible
    else ptFound a interrupted { s with allow_infeasible := false } routes idxs c.feasible

/-- One iteration of the main loop, petalvrp.py 741-989. -/
def ptIter (a : PtArgs) (s : PtState) : Py (PtState ⊕ PtEnd) :=
  let c := ptCover a s
  if c.stop = some false then .ok (.inr .gurobiError)
  else
    ptAfter a c { s with ptl_set := c.ptl_set, seen := c.seen, calls := c.calls, iteration := s.iteration + 1
                         max_used := if c.stop = some true then s.max_used else max s.max_used c.ptl_set }

/-- The main loop, petalvrp.py 741-991. `none` tells that the fuel, which bounds the number of
iterations, did not suffice. -/
def ptLoop (a : PtArgs) : ℕ → PtState → Py (Option PtEnd)
  | 0, _ => .ok none
  | fuel + 1, s =>
    match ptIter a s with
    | .error e => .error e
    | .ok (.inr r) => .ok (some r)
    | .ok (.inl s) => ptLoop a fuel s

/-- The variables before the main loop, petalvrp.py 711-740. -/
def ptStart (a : PtArgs) (allow_infeasible : Bool) (K_constraint : Option ℕ) : PtState :=
  { ptl_set := 1, max_used := 1, relaxed := [], seen := []
    cnt := a.restricted.length + a.reduced.length + a.extended.length
    K_constraint := K_constraint, forbidden := [], best_feasible := false, best := none, best_f := none
    best_K := a.N, allow_infeasible := allow_infeasible, iteration := 0, calls := 0 }

/-! ## The petals of the sweep and the algorithm -/

/-- The class of a route by its demand, petalvrp.py 290 and 313-335: 1 is restricted, 2 is reduced, 3 is
extended. -/
def ptClass (ratio : Option ℚ) (C : Option ℚ) (C_t dem : ℚ) : ℕ :=
  if truthy C && (match ratio with
      | none => false
      | some q => decide (q * C.getD 0 ≤ dem + C_EPS)) then 1
  else if C_t ≤ dem + C_EPS then 2
  else 3

/-- The petals generated so far: restricted, reduced, extended. See petalvrp.py 292-294. -/
structure PtSets where
  restricted : List Petal
  reduced : List Petal
  extended : List Petal
  deriving DecidableEq, Repr

/-- The routes that were generated, `gen_ptls`. See petalvrp.py 289 and 336. -/
def PtSets.routes (g : PtSets) : List (List ℕ) :=
  (g.restricted ++ g.reduced ++ g.extended).map Petal.route

/-- The routes of one sweep, petalvrp.py 304-336. All three sets are generated (the default). -/
def ptAddRoutes (ratio C : Option ℚ) (C_t : ℚ) : List SwRoute → PtSets → Py PtSets
  | [], g => .ok g
  | sw :: sws, g =>
    match route_to_nodeset sw.route,
      RouteData.normalize { route := sw.route, cost := sw.cost, demand := some sw.demand } with
    | .error e, _ => .error e
    | _, .error e => .error e
    | .ok ns, .ok rd =>
      if rd.route ∈ g.routes then ptAddRoutes ratio C C_t sws g
      else
        let p : Petal := { nodes := ns, route := rd.route, cost := rd.cost }
        ptAddRoutes ratio C C_t sws
          (if ptClass ratio C C_t sw.demand = 1 then { g with restricted := g.restricted ++ [p] }
           else if ptClass ratio C C_t sw.demand = 2 then { g with reduced := g.reduced ++ [p] }
           else { g with extended := g.extended ++ [p] })

/-- `_generate_overconstrained_petals`, petalvrp.py 282-355, from the given starts on; `nodes` is the
order of the sweep. `none` tells that the fuel of a sweep did not suffice. -/
def ptGenerate (fuel : ℕ) (D : ℕ → ℕ → ℚ) (d : ℕ → ℚ) (C L : Option ℚ) (tsp : Router) (nodes : List ℕ)
    (ratio : Option ℚ) (C_t : ℚ) : List ℕ → PtSets → Py (Option PtSets)
  | [], g => .ok (some g)
  | start :: starts, g =>
    match do_one_sweep fuel D d C L tsp nodes start true true with
    | .error e => .error e
    | .ok none => .ok none
    | .ok (some routes) =>
      match ptAddRoutes ratio C C_t routes g with
      | .error e => .error e
      | .ok g => ptGenerate fuel D d C L tsp nodes ratio C_t starts g

/-- `v`, the least number of vehicles, petalvrp.py 693-694. (`ceil` of a number that is not negative.) -/
def ptLeastK (N : ℕ) (d : ℕ → ℚ) (c : ℚ) : ℕ := ⌈((List.range N).map d).sum / c + C_EPS⌉₊

/-- `K_constraint`, petalvrp.py 695 and 698. -/
def ptK (N : ℕ) (d : ℕ → ℚ) (C : Option ℚ) (K : Option ℕ) (minimize_K : Bool) : Option ℕ :=
  if !ptTrue K && minimize_K then
    if truthy C then some (ptLeastK N d (C.getD 0)) else some 1
  else K

/-- `C_t`, petalvrp.py 696 and 699. -/
def ptC_t (N : ℕ) (d : ℕ → ℚ) (C : Option ℚ) (K : Option ℕ) : ℚ :=
  if truthy C then
    let k : ℕ := if ptTrue K then K.getD 0 else ptLeastK N d (C.getD 0)
    ((List.range N).map d).sum - ((k : ℚ) - 1) * C.getD 0
  else 0

/-- The options of `petal_init`, petalvrp.py 581-589, with their defaults. -/
structure PtOpts where
  K : Option ℕ := none
  minimize_K : Bool := false
  relaxe : Bool := true
  required : Option ℤ := none
  min_iterations : Option ℤ := none
  ratio : Option ℚ := some (3 / 4)
  allow_infeasible : Bool := true

/-- `petal_init`, petalvrp.py 581-991, without predefined petals; the routine for the tours, the solver
and the generator of the relaxed petals are parameters, `nodes` is the order of the sweep, `sweeps` and
`fuel` bound the numbers of iterations of the sweeps and of the main loop. -/
def petal_init (sweeps fuel N : ℕ) (D : ℕ → ℕ → ℚ) (d : ℕ → ℚ) (C L : Option ℚ) (o : PtOpts)
    (tsp : Router) (nodes : List ℕ) (opt rlx : MipSolver) (gen : List (List ℕ) → Py (List RouteData))
    (signal : ℕ → Option Bool) : Py (Option PtEnd) :=
  if N = 0 then .error .valueError
  else
    match ptGenerate sweeps D d C L tsp nodes o.ratio (ptC_t N d C o.K) (List.range (N - 1)) ⟨[], [], []⟩ with
    | .error e => .error e
    | .ok none => .ok none
    | .ok (some g) =>
      let a : PtArgs :=
        { N := N, D := D, K := o.K, minimize_K := o.minimize_K, relaxe := o.relaxe, required := o.required
          min_iterations := o.min_iterations, restricted := g.restricted, reduced := g.reduced
          extended := g.extended, opt := opt, rlx := rlx, gen := gen, signal := signal }
      ptLoop a fuel (ptStart a o.allow_infeasible (ptK N d C o.K o.minimize_K))

end Verif
