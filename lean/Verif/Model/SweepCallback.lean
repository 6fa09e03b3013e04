import Verif.Model.GillettMiller
import Mathlib.Data.List.Sort

/-!
# Model of the sweep with a route improvement callback and of the heuristic of Gillett and Miller

Model of `do_one_sweep` and `sweep_init` of `verypy/classic_heuristics/sweep.py` with the parameter
`intra_route_callback`, and of `gillet_miller_init` of `gillet_miller_sweep.py`.
-/

namespace Verif

/-- The callback that improves the emerging route, called at sweep.py 244-247 with the route, the position
and the list of the routed nodes. The data structures, radii and angles it is also given are fixed during a
sweep. -/
abbrev SwCallback := SwRoute → (ℕ → Bool) → ℕ → Py GmResult

/-- The variables of the main loop with the set of the nodes that are skipped until the next route,
sweep.py 180-183. -/
structure SwStateB extends SwState where
  blocked : List ℕ

/-- The loop over the nodes to ignore, sweep.py 257-265. -/
def swIgnore : List ℕ → SwStateB → SwStateB
  | [], s => s
  | n :: t, s =>
    swIgnore t { s with
      routed := setRouted s.routed n false
      blocked := n :: s.blocked
      node := if s.node = some n then none else s.node }

/-- The call of the callback, sweep.py 241-265. -/
def swImprove (cb : SwCallback) (s : SwStateB) : Py SwStateB :=
  match s.node with
  | none => .ok s
  | some _ =>
    match cb s.cur s.routed s.pos with
    | .error e => .error e
    | .ok (cur, included, ignored, complete) =>
      .ok (swIgnore ignored { s with
        cur := cur
        complete := complete
        ub := cur.cost
        routed := included.foldl (fun r n => setRouted r n true) s.routed })

/-- How an iteration ends: with all routes (sweep.py 348) or with the variables of the next node. -/
inductive SwNextB where
  | done (routes : List SwRoute)
  | next (s : SwStateB)

/-- The part of the iteration in which the route may be complete, sweep.py 267-295, without alternative first
routes. The skipped nodes are free again when the next route begins, sweep.py 289-295. -/
def swStoreB (total : ℕ) (s : SwStateB) : SwNextB :=
  if s.complete then
    match swStore false total s.toSwState with
    | .done routes => .done routes
    | .next s' => .next { s' with blocked := [] }
  else .next s

/-- One iteration of the main loop up to the addition of the node, sweep.py 205-304. -/
def swHeadB (d : ℕ → ℚ) (C L : Option ℚ) (fwd : Bool) (nodes : List ℕ) (tsp : Router) (cb : SwCallback)
    (fuel : ℕ) (s : SwStateB) : Py (Option SwNextB) :=
  match swTest d C L tsp s.toSwState with
  | .error e => .error e
  | .ok s1 =>
    if s1.complete then
      match swRoute d C L fwd nodes tsp fuel s1 with
      | .error e => .error e
      | .ok none => .ok none
      | .ok (some s2) =>
        match swImprove cb { s2 with blocked := s.blocked } with
        | .error e => .error e
        | .ok s3 => .ok (some (swStoreB nodes.length s3))
    else .ok (some (.next { s1 with blocked := s.blocked }))

/-- The step to the next node that has no route and is not skipped, sweep.py 328-342. -/
def swMoveB (fwd : Bool) (nodes : List ℕ) (fuel : ℕ) (s : SwStateB) : Py (Option SwStateB) :=
  match swScan fwd nodes (fun n => s.routed n || s.blocked.contains n) s.pos fuel s.pos with
  | .error e => .error e
  | .ok none => .ok none
  | .ok (some (pos, some n)) => .ok (some { s with pos := pos, node := some n })
  | .ok (some (pos, none)) => .ok (some { s with pos := pos, node := none, complete := true, blocked := [] })

/-- The main loop, sweep.py 189-342. -/
def sweepLoopB (D : ℕ → ℕ → ℚ) (d : ℕ → ℚ) (C L : Option ℚ) (fwd : Bool) (nodes : List ℕ)
    (tsp : Router) (cb : SwCallback) (inner : ℕ) : ℕ → SwStateB → Py (Option (List SwRoute))
  | 0, _ => .ok none
  | fuel + 1, s =>
    match swHeadB d C L fwd nodes tsp cb inner s with
    | .error e => .error e
    | .ok none => .ok none
    | .ok (some (.done routes)) => .ok (some routes)
    | .ok (some (.next s)) =>
      match swAdd D d C L s.toSwState with
      | .error e => .error e
      | .ok s' =>
        match swMoveB fwd nodes inner { s' with blocked := s.blocked } with
        | .error e => .error e
        | .ok none => .ok none
        | .ok (some s) => sweepLoopB D d C L fwd nodes tsp cb inner fuel s

/-- `do_one_sweep` with a callback for the routes, sweep.py 134-348. -/
def do_one_sweep_cb (fuel : ℕ) (D : ℕ → ℕ → ℚ) (d : ℕ → ℚ) (C L : Option ℚ) (tsp : Router)
    (nodes : List ℕ) (cb : SwCallback) (start : ℕ) (fwd : Bool) : Py (Option (List SwRoute)) :=
  match idx nodes start with
  | .error e => .error e
  | .ok node =>
    sweepLoopB D d C L fwd nodes tsp cb fuel fuel
      { routes := [], routed := fun n => n == 0, routed_cnt := 0, cur := .new, ub := 0,
        complete := false, pos := start, node := some node, blocked := [] }

/-- The two loops of `sweep_init` with the callback, sweep.py 495-522. The callback is given the direction
and the start, on which the angles it is called with depend (sweep.py 152-157). -/
def sweepRunsB (fuel : ℕ) (D : ℕ → ℕ → ℚ) (d : ℕ → ℚ) (C L : Option ℚ) (tsp : Router)
    (nodes : List ℕ) (cb : Bool → ℕ → SwCallback) (minimize_K : Bool) : List (Bool × ℕ) →
    Option (List ℕ × ℚ × ℚ) → List (Option (List ℕ)) →
    Py (Option (Option (List ℕ) × List (Option (List ℕ))))
  | [], best, seen => .ok (some (best.map (·.1), seen))
  | (fwd, start) :: t, best, seen =>
    match do_one_sweep_cb fuel D d C L tsp nodes (cb fwd start) start fwd with
    | .error e => .error e
    | .ok none => .ok none
    | .ok (some routes) =>
      let best := keepBetter D minimize_K best (sweepSol routes)
      sweepRunsB fuel D d C L tsp nodes cb minimize_K t best (seen ++ [best.map (·.1)])

/-- `sweep_init` with a callback for the routes, sweep.py 376-526. -/
def sweep_init_cb (fuel N : ℕ) (D : ℕ → ℕ → ℚ) (d : ℕ → ℚ) (C L : Option ℚ) (tsp : Router)
    (nodes : List ℕ) (cb : Bool → ℕ → SwCallback) (minimize_K : Bool) (dir : SweepDir) (seed : SweepSeed) :
    Py (Option (Option (List ℕ) × List (Option (List ℕ)))) :=
  match sweepDirs dir, sweepStarts N nodes seed with
  | .error e, _ => .error e
  | _, .error e => .error e
  | .ok dirs, .ok starts =>
    sweepRunsB fuel D d C L tsp nodes cb minimize_K (dirs.flatMap fun x => starts.map fun s => (x, s)) none [none]

/-- `produce_nn_list` without the distances, util.py 32-42: all nodes in the order of the distance from `i`. -/
def nnList (N : ℕ) (D : ℕ → ℕ → ℚ) (i : ℕ) : List ℕ :=
  (List.range N).insertionSort fun a b => D i a ≤ D i b

/-- `gillet_miller_init`, gillet_miller_sweep.py 303-330, for given points and the sweep of them.
`key fwd start` are the numbers that choose the node to remove, which depend on the angles of the sweep in
that direction from that start. An empty `points` is a `ValueError`. -/
def gillet_miller_init (fuel N : ℕ) (points : List (ℚ × ℚ)) (D : ℕ → ℕ → ℚ) (d : ℕ → ℚ) (C L : Option ℚ)
    (tsp : TspSolver) (nodes : List ℕ) (key : Bool → ℕ → ℕ → ℚ) (minimize_K : Bool)
    (dir : SweepDir) (seed : SweepSeed) : Py (Option (Option (List ℕ) × List (Option (List ℕ)))) :=
  if points = [] then .error .valueError
  else
    sweep_init_cb fuel N D d C L (tsp D) nodes (fun fwd start =>
      gm_improvement tsp { N := N, D := D, NN_D := nnList N D, d := d, C := C, L := L, nodes := nodes,
                           key := key fwd start } fwd) minimize_K dir seed

end Verif
