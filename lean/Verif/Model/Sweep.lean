import Verif.Model.Util
import Verif.Model.OrderedDictSet

/-! # Model of `verypy/classic_heuristics/sweep.py`

Modelled without the improvement callbacks, which default to `None`; `blocked_nodes` then stays
empty. `Model/SweepCallback.lean` models the sweep with a callback for the routes. A sweep is the list of its nodes in the polar order (`sweep[2]`); the angles are only used by
the callbacks and the debug output. The direction `step_inc` is a Boolean: `true` is 1, `false` is
-1. The routing algorithm is a function from lists of nodes to a tour and its cost. -/

namespace Verif

/-- A routing algorithm with the distance matrix already given to it. See sweep.py 116, 210 and 218. -/
abbrev Router := List ℕ → List ℕ × ℚ

/-- `RouteData` with its node set, an `OrderedDictSet` given by the list of its keys. See sweep.py 175-176. -/
structure SwRoute where
  route : List ℕ
  cost : ℚ
  demand : ℚ
  node_set : List ℕ
  deriving DecidableEq, Repr

/-- `RouteData([0])` with `node_set = OrderedSet([0])`, sweep.py 175-176. -/
def SwRoute.new : SwRoute := { route := [0], cost := 0, demand := 0, node_set := [0] }

/-- `_step(current, inc, max_val)`, sweep.py 71-78. -/
def sweepStep (fwd : Bool) (current max_val : ℕ) : ℕ :=
  if fwd then (if max_val < current + 1 then 0 else current + 1)
  else (if current = 0 then max_val else current - 1)

/-- `l[i] = v` on the list `routed`, which is a function here; all the nodes are less than `N`.
See sweep.py 115, 170 and 256-259. -/
def setRouted (routed : ℕ → Bool) (n : ℕ) (v : Bool) : ℕ → Bool := fun m => if m = n then v else routed m

/-- The loop of `_ensure_L_feasible`, sweep.py 107-132. `pos` is `pos_to_remove`, `lpos` is
`L_feasible_sweep_pos`. The answer `none` tells that the fuel, which bounds the number of iterations,
did not suffice. -/
def ensureL (d : ℕ → ℚ) (C L : Option ℚ) (fwd : Bool) (nodes : List ℕ) (tsp : Router) :
    ℕ → SwRoute → (ℕ → Bool) → ℕ → ℕ → Py (Option (SwRoute × (ℕ → Bool) × ℕ))
  | 0, _, _, _, _ => .ok none
  | fuel + 1, cur, routed, pos, lpos =>
    if exceeds L S_EPS cur.cost = false then .ok (some (cur, routed, lpos))
    else
      let pos := sweepStep (!fwd) pos (nodes.length - 1)
      match idx nodes pos with
      | .error e => .error e
      | .ok node =>
        if node ∈ cur.node_set then
          let ns := cur.node_set.erase node
          ensureL d C L fwd nodes tsp fuel
            { route := (tsp ns).1
              cost := (tsp ns).2
              demand := if truthy C then cur.demand - d node else cur.demand
              node_set := ns }
            (setRouted routed node false) pos pos
        else ensureL d C L fwd nodes tsp fuel cur routed pos lpos

/-- The variables of `do_one_sweep`, sweep.py 167-188. -/
structure SwState where
  routes : List SwRoute
  routed : ℕ → Bool
  routed_cnt : ℕ
  cur : SwRoute
  ub : ℚ
  complete : Bool
  pos : ℕ
  node : Option ℕ

/-- What an iteration of the main loop leads to. See sweep.py 189-342. -/
inductive SwNext where
  | done (routes : List SwRoute)
  | next (s : SwState)

/-- The tests whether the route is complete, sweep.py 205-213. A `None` node is never used there. -/
def swTest (d : ℕ → ℚ) (C L : Option ℚ) (tsp : Router) (s : SwState) : Py SwState :=
  if s.complete then .ok s
  else
    match s.node with
    | none => if truthy C || exceeds L 0 s.ub then .error .typeError else .ok s
    | some n =>
      if exceeds C C_EPS (s.cur.demand + d n) then .ok { s with complete := true }
      else if exceeds L 0 s.ub then
        let c := (tsp (s.cur.node_set ++ [n])).2
        .ok { s with ub := c, complete := exceeds L S_EPS c }
      else .ok s

/-- The tour of the route and the removal of the nodes that break the cost limit, sweep.py 218-240. -/
def swRoute (d : ℕ → ℚ) (C L : Option ℚ) (fwd : Bool) (nodes : List ℕ) (tsp : Router) (fuel : ℕ)
    (s : SwState) : Py (Option SwState) :=
  let t := tsp s.cur.node_set
  let cur := { s.cur with route := t.1, cost := t.2 }
  if truthy L then
    match ensureL d C L fwd nodes tsp fuel cur s.routed s.pos s.pos with
    | .error e => .error e
    | .ok none => .ok none
    | .ok (some (cur, routed, lpos)) =>
      if lpos ≠ s.pos then
        match s.node, idx nodes lpos with
        | none, _ => .ok (some { s with cur := cur, ub := cur.cost, routed := routed, pos := lpos,
                                        complete := true })
        | some _, .error e => .error e
        | some _, .ok n => .ok (some { s with cur := cur, ub := cur.cost, routed := routed, pos := lpos,
                                              node := some n, complete := true })
      else .ok (some { s with cur := cur, ub := cur.cost, routed := routed })
  else .ok (some { s with cur := cur, ub := cur.cost })

/-- What is done with the route, sweep.py 269-304. The flag is
`generate_alternative_first_routes`, `total` is `total_to_route`. -/
def swStore (alt : Bool) (total : ℕ) (s : SwState) : SwNext :=
  if s.complete then
    let nonempty := decide (1 < s.cur.node_set.length)
    let cnt := if nonempty then s.routed_cnt + (s.cur.node_set.length - 1) else s.routed_cnt
    let routes := if nonempty then s.routes ++ [s.cur] else s.routes
    if total ≤ cnt then .done routes
    else if alt then .done routes
    else .next { s with routes := routes, routed_cnt := cnt, cur := .new, ub := 0, complete := false }
  else .next { s with routes := s.routes ++ [s.cur] }

/-- The node before the end of the tour, sweep.py 313-317. -/
def swPrev (route : List ℕ) : Py ℕ :=
  if 2 < route.length then do
    let last ← idxNeg route 1
    if last ≠ 0 then pure last else idxNeg route 2
  else pure 0

/-- The addition of the node, sweep.py 307-320. -/
def swAdd (D : ℕ → ℕ → ℚ) (d : ℕ → ℚ) (C L : Option ℚ) (s : SwState) : Py SwState :=
  match s.node with
  | none => .ok s
  | some n =>
    if s.routed n then .ok s
    else
      match swPrev s.cur.route with
      | .error e => .error e
      | .ok prev =>
        .ok { s with
          cur := { s.cur with
            node_set := ODS.dictSet s.cur.node_set n
            demand := if truthy C then s.cur.demand + d n else s.cur.demand }
          routed := setRouted s.routed n true
          ub := if truthy L then s.ub + (-D prev 0 + D prev n + D n 0) else s.ub }

/-- The loop that steps to the next node, sweep.py 329-342. `start` is `start_stepping_from`. -/
def swScan (fwd : Bool) (nodes : List ℕ) (routed : ℕ → Bool) (start : ℕ) :
    ℕ → ℕ → Py (Option (ℕ × Option ℕ))
  | 0, _ => .ok none
  | fuel + 1, pos =>
    let pos := sweepStep fwd pos (nodes.length - 1)
    match idx nodes pos with
    | .error e => .error e
    | .ok n =>
      if !routed n then .ok (some (pos, some n))
      else if pos = start then .ok (some (pos, none))
      else swScan fwd nodes routed start fuel pos

/-- The step to the next node, sweep.py 328-342. -/
def swMove (fwd : Bool) (nodes : List ℕ) (fuel : ℕ) (s : SwState) : Py (Option SwState) :=
  match swScan fwd nodes s.routed s.pos fuel s.pos with
  | .error e => .error e
  | .ok none => .ok none
  | .ok (some (pos, some n)) => .ok (some { s with pos := pos, node := some n })
  | .ok (some (pos, none)) => .ok (some { s with pos := pos, node := none, complete := true })

/-- One iteration of the main loop up to the addition of the node, sweep.py 205-304. -/
def swHead (d : ℕ → ℚ) (C L : Option ℚ) (fwd : Bool) (nodes : List ℕ) (tsp : Router) (alt : Bool)
    (fuel : ℕ) (s : SwState) : Py (Option SwNext) :=
  match swTest d C L tsp s with
  | .error e => .error e
  | .ok s =>
    if s.complete || (alt && decide (1 < s.cur.node_set.length)) then
      match swRoute d C L fwd nodes tsp fuel s with
      | .error e => .error e
      | .ok none => .ok none
      | .ok (some s) => .ok (some (swStore alt nodes.length s))
    else .ok (some (.next s))

/-- The main loop, sweep.py 189-342. -/
def sweepLoop (D : ℕ → ℕ → ℚ) (d : ℕ → ℚ) (C L : Option ℚ) (fwd : Bool) (nodes : List ℕ)
    (tsp : Router) (alt : Bool) (inner : ℕ) : ℕ → SwState → Py (Option (List SwRoute))
  | 0, _ => .ok none
  | fuel + 1, s =>
    match swHead d C L fwd nodes tsp alt inner s with
    | .error e => .error e
    | .ok none => .ok none
    | .ok (some (.done routes)) => .ok (some routes)
    | .ok (some (.next s)) =>
      match swAdd D d C L s with
      | .error e => .error e
      | .ok s =>
        match swMove fwd nodes inner s with
        | .error e => .error e
        | .ok none => .ok none
        | .ok (some s) => sweepLoop D d C L fwd nodes tsp alt inner fuel s

/-- `do_one_sweep`, sweep.py 134-348. -/
def do_one_sweep (fuel : ℕ) (D : ℕ → ℕ → ℚ) (d : ℕ → ℚ) (C L : Option ℚ) (tsp : Router)
    (nodes : List ℕ) (start : ℕ) (fwd alt : Bool) : Py (Option (List SwRoute)) :=
  match idx nodes start with
  | .error e => .error e
  | .ok node =>
    sweepLoop D d C L fwd nodes tsp alt fuel fuel
      { routes := [], routed := fun n => n == 0, routed_cnt := 0, cur := .new, ub := 0,
        complete := false, pos := start, node := some node }

/-- The default routing algorithm, sweep.py 474-475. -/
def sweptOrder (D : ℕ → ℕ → ℚ) : Router := fun l => (l ++ [0], objf (l ++ [0]) D)

/-- The solution of the routes, sweep.py 509-511. -/
def sweepSol (routes : List SwRoute) : List ℕ :=
  without_empty_routes (routes.flatMap (fun rd => rd.route.dropLast) ++ [0])

/-- The best of the solutions so far, sweep.py 512-522: `best_sol, best_f, best_K`. -/
def keepBetter (D : ℕ → ℕ → ℚ) (minimize_K : Bool) (best : Option (List ℕ × ℚ × ℚ)) (sol : List ℕ) :
    Option (List ℕ × ℚ × ℚ) :=
  let sol_f := objf sol D
  let sol_K : ℚ := (sol.count 0 : ℚ) - 1
  if is_better_sol (best.map (·.2.1)) (best.map (·.2.2)) (some sol_f) (some sol_K) minimize_K then
    some (sol, sol_f, sol_K)
  else best

/-- The two loops of `sweep_init`, sweep.py 495-522, over pairs of a direction and a start. The second
part of the answer is the list of the values of `best_sol`, which an interrupt hands out (line 524). -/
def sweepRuns (fuel : ℕ) (D : ℕ → ℕ → ℚ) (d : ℕ → ℚ) (C L : Option ℚ) (tsp : Router)
    (nodes : List ℕ) (minimize_K : Bool) : List (Bool × ℕ) → Option (List ℕ × ℚ × ℚ) →
    List (Option (List ℕ)) → Py (Option (Option (List ℕ) × List (Option (List ℕ))))
  | [], best, seen => .ok (some (best.map (·.1), seen))
  | (fwd, start) :: t, best, seen =>
    match do_one_sweep fuel D d C L tsp nodes start fwd false with
    | .error e => .error e
    | .ok none => .ok none
    | .ok (some routes) =>
      let best := keepBetter D minimize_K best (sweepSol routes)
      sweepRuns fuel D d C L tsp nodes minimize_K t best (seen ++ [best.map (·.1)])

/-- `direction`, sweep.py 447-454. -/
inductive SweepDir where
  | ccw | cw | both | other

/-- `seed_node`, sweep.py 457-468. For the node closest to the depot the index of it is given (it comes
from `np.argmin`). -/
inductive SweepSeed where
  | closest (argmin : ℕ)
  | smallestAngle
  | best
  | node (i : ℤ)
  | list (l : List ℕ)

/-- `starts`, sweep.py 457-468, for `N = len(D)`. A node that is not in the sweep is an `IndexError`. -/
def sweepStarts (N : ℕ) (nodes : List ℕ) : SweepSeed → Py (List ℕ)
  | .closest a => .ok [a]
  | .smallestAngle => .ok [0]
  | .best => .ok (pyRange 0 (N - 1))
  | .node i =>
    if (i.natAbs % N) ∈ nodes then .ok [nodes.idxOf (i.natAbs % N)] else .error .indexError
  | .list l => .ok l

/-- `step_incs`, sweep.py 447-454. -/
def sweepDirs : SweepDir → Py (List Bool)
  | .ccw => .ok [true]
  | .cw => .ok [false]
  | .both => .ok [true, false]
  | .other => .error .valueError

/-- `sweep_init`, sweep.py 376-526, for a given sweep and without callbacks. -/
def sweep_init (fuel N : ℕ) (D : ℕ → ℕ → ℚ) (d : ℕ → ℚ) (C L : Option ℚ) (tsp : Router)
    (nodes : List ℕ) (minimize_K : Bool) (dir : SweepDir) (seed : SweepSeed) :
    Py (Option (Option (List ℕ) × List (Option (List ℕ)))) :=
  match sweepDirs dir, sweepStarts N nodes seed with
  | .error e, _ => .error e
  | _, .error e => .error e
  | .ok dirs, .ok starts =>
    sweepRuns fuel D d C L tsp nodes minimize_K (dirs.flatMap fun x => starts.map fun s => (x, s)) none [none]

end Verif
