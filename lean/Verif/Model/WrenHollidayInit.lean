import Verif.Model.WrenHolliday
import Verif.Model.IntraRoute
import Verif.Model.Sweep

/-! # Model of the improvement procedures and the main function of
`verypy/classic_heuristics/wren_holliday_sweep.py`

The lists of routes that the procedures change in place are returned. The demands are a list, so `d`
is a function here. Loops without a bound take fuel; `none` tells that it did not suffice. -/

namespace Verif

/-- `_remove_empty_in_place`, wren_holliday_sweep.py 107-108. -/
def remove_empty (routes : List RouteData) : List RouteData := routes.filter fun rd => ! rd.is_empty

/-! ## INSPECT -/

/-- The `while` loop over a route, wren_holliday_sweep.py 116-122. -/
def whInspectRoute (D : ℕ → ℕ → ℚ) : ℕ → RouteData → Bool → Py (Option (RouteData × Bool))
  | 0, _, _ => .ok none
  | fuel + 1, rd, improved =>
    match do_2opt_move rd.route D .FIRST_ACCEPT none with
    | .error e => .error e
    | .ok none => .ok (some (rd, improved))
    | .ok (some (new_route, delta)) =>
      whInspectRoute D fuel { rd with route := new_route, cost := rd.cost + delta } true

/-- The body of the loop over the routes, wren_holliday_sweep.py 113-122. -/
def whInspectOne (fuel : ℕ) (D : ℕ → ℕ → ℚ) (rd : RouteData) : Py (Option (RouteData × Bool)) :=
  if rd.is_empty then .ok (some (rd, false)) else whInspectRoute D fuel rd false

/-- `inspect_heuristic`, wren_holliday_sweep.py 110-123. -/
def inspect_heuristic (fuel : ℕ) (D : ℕ → ℕ → ℚ) : List RouteData → Py (Option (List RouteData × Bool))
  | [] => .ok (some ([], false))
  | rd :: rest =>
    match whInspectOne fuel D rd with
    | .error e => .error e
    | .ok none => .ok none
    | .ok (some (rd, improved)) =>
      match inspect_heuristic fuel D rest with
      | .error e => .error e
      | .ok none => .ok none
      | .ok (some (rest, improved')) => .ok (some (rd :: rest, improved || improved'))

/-! ## SINGLE -/

/-- The move on the same route, wren_holliday_sweep.py 142-147. -/
def whRelocate (D : ℕ → ℕ → ℚ) (rd1 : RouteData) : Py (RouteData × Bool) :=
  match do_relocate_move rd1.route D .FIRST_ACCEPT none with
  | .error e => .error e
  | .ok none => .ok (rd1, false)
  | .ok (some (new_route, delta)) => .ok ({ rd1 with route := new_route, cost := rd1.cost + delta }, true)

/-- The move from one route to another, wren_holliday_sweep.py 151-160. The variable `rd1` is
`routes[rd1_idx]` all the time. -/
def whMoveTo (D : ℕ → ℕ → ℚ) (d : ℕ → ℚ) (C L : Option ℚ) (rd1_idx rd2_idx : ℕ) (routes : List RouteData) :
    Py (List RouteData × Bool) :=
  if rd1_idx = rd2_idx then .ok (routes, false)
  else
    match idx routes rd1_idx with
    | .error e => .error e
    | .ok rd1 =>
      match idx routes rd2_idx with
      | .error e => .error e
      | .ok rd2 =>
        match do_1point_move rd1 rd2 D (some d) C L .FIRST_ACCEPT none with
        | .error e => .error e
        | .ok none => .ok (routes, false)
        | .ok (some ([new_rd1, new_rd2], _)) =>
          .ok ((routes.set rd1_idx new_rd1).set rd2_idx new_rd2, true)
        | .ok (some _) => .error .valueError

/-- The loop over the other routes, wren_holliday_sweep.py 150-160. The Boolean is
`route_improvement_found`. -/
def whMoveAll (D : ℕ → ℕ → ℚ) (d : ℕ → ℚ) (C L : Option ℚ) (rd1_idx : ℕ) :
    List ℕ → List RouteData → Bool → Py (List RouteData × Bool)
  | [], routes, improved => .ok (routes, improved)
  | rd2_idx :: rest, routes, improved =>
    match whMoveTo D d C L rd1_idx rd2_idx routes with
    | .error e => .error e
    | .ok (routes, b) => whMoveAll D d C L rd1_idx rest routes (improved || b)

/-- The body of the `while` loop over a route, wren_holliday_sweep.py 139-160. -/
def whSingleOnce (D : ℕ → ℕ → ℚ) (d : ℕ → ℚ) (C L : Option ℚ) (rd1_idx : ℕ) (routes : List RouteData) :
    Py (List RouteData × Bool) :=
  match idx routes rd1_idx with
  | .error e => .error e
  | .ok rd1 =>
    match whRelocate D rd1 with
    | .error e => .error e
    | .ok (rd1, b) =>
      whMoveAll D d C L rd1_idx (List.range routes.length) (routes.set rd1_idx rd1) b

/-- The `while` loop over a route, wren_holliday_sweep.py 137-160. -/
def whSingleRoute (D : ℕ → ℕ → ℚ) (d : ℕ → ℚ) (C L : Option ℚ) (rd1_idx : ℕ) :
    ℕ → List RouteData → Bool → Py (Option (List RouteData × Bool))
  | 0, _, _ => .ok none
  | fuel + 1, routes, improved =>
    match whSingleOnce D d C L rd1_idx routes with
    | .error e => .error e
    | .ok (routes, false) => .ok (some (routes, improved))
    | .ok (routes, true) => whSingleRoute D d C L rd1_idx fuel routes true

/-- The body of the loop over the routes, wren_holliday_sweep.py 133-160. -/
def whSingleOne (fuel : ℕ) (D : ℕ → ℕ → ℚ) (d : ℕ → ℚ) (C L : Option ℚ) (rd1_idx : ℕ)
    (routes : List RouteData) : Py (Option (List RouteData × Bool)) :=
  match idx routes rd1_idx with
  | .error e => .error e
  | .ok rd1 =>
    if rd1.is_empty then .ok (some (routes, false))
    else whSingleRoute D d C L rd1_idx fuel routes false

/-- The loop over the routes, wren_holliday_sweep.py 133-160. -/
def whSingleLoop (fuel : ℕ) (D : ℕ → ℕ → ℚ) (d : ℕ → ℚ) (C L : Option ℚ) :
    List ℕ → List RouteData → Bool → Py (Option (List RouteData × Bool))
  | [], routes, improved => .ok (some (routes, improved))
  | rd1_idx :: rest, routes, improved =>
    match whSingleOne fuel D d C L rd1_idx routes with
    | .error e => .error e
    | .ok none => .ok none
    | .ok (some (routes, b)) => whSingleLoop fuel D d C L rest routes (improved || b)

/-- `single_heuristic`, wren_holliday_sweep.py 125-162. -/
def single_heuristic (fuel : ℕ) (D : ℕ → ℕ → ℚ) (d : ℕ → ℚ) (C L : Option ℚ) (routes : List RouteData) :
    Py (Option (List RouteData × Bool)) :=
  whSingleLoop fuel D d C L (List.range routes.length) routes false

/-! ## PAIR -/

/-- `np.min`. See wren_holliday_sweep.py 169 and 177. -/
def npMin : List ℚ → Py ℚ
  | [] => .error .valueError
  | x :: xs => .ok (xs.foldl min x)

/-- `smallest_demands[rd]`, wren_holliday_sweep.py 172-177 and 204-210. The keys of the dictionary are
the records themselves, and whenever a record is replaced there is a new entry: the entry can be
computed when it is used. -/
def smallestDemand (d : ℕ → ℚ) (rd : RouteData) : Py ℚ :=
  if rd.is_empty then .ok 0 else npMin (rd.route.tail.dropLast.map d)

/-- Whether the triple is skipped, wren_holliday_sweep.py 188-194. -/
def whNoRoom (d : ℕ → ℚ) (C : Option ℚ) (min_d : ℚ) (rd2 rd3 : RouteData) : Py Bool :=
  match C with
  | none => .ok false
  | some c =>
    if c = 0 then .ok false
    else
      match smallestDemand d rd3, smallestDemand d rd2 with
      | .error e, _ => .error e
      | _, .error e => .error e
      | .ok s3, .ok s2 =>
        .ok (decide (c + C_EPS - s3 < min_d) || decide (c + C_EPS - s3 < s2))

/-- The body of the loop over the triples, wren_holliday_sweep.py 181-211. -/
def whPairAt (D : ℕ → ℕ → ℚ) (d : ℕ → ℚ) (C L : Option ℚ) (min_d : ℚ) (i j k : ℕ) (routes : List RouteData) :
    Py (List RouteData × Bool) :=
  match idx routes i, idx routes j, idx routes k with
  | .error e, _, _ => .error e
  | _, .error e, _ => .error e
  | _, _, .error e => .error e
  | .ok rd1, .ok rd2, .ok rd3 =>
    if rd1.is_empty || rd2.is_empty then .ok (routes, false)
    else
      match whNoRoom d C min_d rd2 rd3 with
      | .error e => .error e
      | .ok true => .ok (routes, false)
      | .ok false =>
        match do_chain_move rd1 rd2 rd3 D (some d) C L .FIRST_ACCEPT none with
        | .error e => .error e
        | .ok none => .ok (routes, false)
        | .ok (some ([new_rd1, new_rd2, new_rd3], _)) =>
          .ok (((routes.set i new_rd1).set j new_rd2).set k new_rd3, true)
        | .ok (some _) => .error .valueError

/-- The loop over the triples, wren_holliday_sweep.py 179-211. -/
def whPairLoop (D : ℕ → ℕ → ℚ) (d : ℕ → ℚ) (C L : Option ℚ) (min_d : ℚ) :
    List (ℕ × ℕ × ℕ) → List RouteData → Bool → Py (List RouteData × Bool)
  | [], routes, improved => .ok (routes, improved)
  | (i, j, k) :: rest, routes, improved =>
    match whPairAt D d C L min_d i j k routes with
    | .error e => .error e
    | .ok (routes, b) => whPairLoop D d C L min_d rest routes (improved || b)

/-- `permutations(range(n), 3)`. See wren_holliday_sweep.py 180. -/
def triples (n : ℕ) : List (ℕ × ℕ × ℕ) :=
  (List.range n).flatMap fun i => ((List.range n).filter fun j => decide (j ≠ i)).flatMap fun j =>
    ((List.range n).filter fun k => decide (k ≠ i) && decide (k ≠ j)).map fun k => (i, j, k)

/-- `pair_heuristic`, wren_holliday_sweep.py 165-213, with `N = len(d)`. -/
def pair_heuristic (N : ℕ) (D : ℕ → ℕ → ℚ) (d : ℕ → ℚ) (C L : Option ℚ) (routes : List RouteData) :
    Py (List RouteData × Bool) :=
  match npMin ((List.range N).map d) with
  | .error e => .error e
  | .ok min_d => whPairLoop D d C L min_d (triples routes.length) routes false

/-! ## DELETE -/

/-- `delta < best_insertion_delta`, where `none` is infinity, wren_holliday_sweep.py 237. -/
def whBelow (delta : ℚ) (best : Option (ℚ × List RouteData)) : Bool :=
  match best with
  | none => true
  | some b => decide (delta < b.1)

/-- The loop over the routes, wren_holliday_sweep.py 222-240. Records are compared by identity there, so
the other routes are those at other positions. The infinite `best_delta` of the first call has the
same effect as `None`. -/
def whDeleteLoop (D : ℕ → ℕ → ℚ) (d : ℕ → ℚ) (C L : Option ℚ) (routes : List RouteData) :
    List ℕ → Option (ℚ × List RouteData) → Py (Option (ℚ × List RouteData))
  | [], best => .ok best
  | rd1_idx :: rest, best =>
    match idx routes rd1_idx with
    | .error e => .error e
    | .ok rd1 =>
      if rd1.is_empty then whDeleteLoop D d C L routes rest best
      else
        match do_redistribute_move rd1 (remove_empty (routes.eraseIdx rd1_idx)) D (some d) C L .FIRST_ACCEPT
            (best.map (·.1)) 0 with
        | .error e => .error e
        | .ok none => whDeleteLoop D d C L routes rest best
        | .ok (some (rds, delta)) =>
          whDeleteLoop D d C L routes rest (if whBelow delta best then some (delta, rds) else best)

/-- `delete_heuristic`, wren_holliday_sweep.py 215-244. -/
def delete_heuristic (D : ℕ → ℕ → ℚ) (d : ℕ → ℚ) (C L : Option ℚ) (routes : List RouteData) :
    Py (List RouteData × Bool) :=
  match whDeleteLoop D d C L routes (List.range routes.length) none with
  | .error e => .error e
  | .ok none => .ok (routes, false)
  | .ok (some (_, rds)) => .ok (rds, true)

/-! ## DISENTANGLE -/

/-- `half_ranges`, wren_holliday_sweep.py 70: the negative and the positive range of angles. -/
structure PhiRange where
  negMin : ℚ
  negMax : ℚ
  posMin : ℚ
  posMax : ℚ
  deriving DecidableEq, Repr

/-- The sign of an angle, `none` before the first that is not zero; `true` is positive. Line 75.
See wren_holliday_sweep.py 74-78. -/
def phiSign (sign : Option Bool) (phi : ℚ) : Option Bool :=
  if phi = 0 then sign else some (decide (0 < phi))

/-- The edge crosses the valid range or the origin, wren_holliday_sweep.py 78-86. -/
def phiCross (pi : ℚ) (r : PhiRange) (sign : Option Bool) (prev phi : ℚ) : PhiRange :=
  if sign ≠ none ∧ phiSign sign phi ≠ sign then
    if |phi - prev| > pi then { r with negMin := -pi, posMax := pi }
    else { r with negMax := 0, posMin := 0 }
  else r

/-- The negative half, wren_holliday_sweep.py 87-93. -/
def phiNeg (pi : ℚ) (r : PhiRange) (phi : ℚ) : PhiRange :=
  if phi ≤ 0 then
    { r with negMax := if r.negMax ≠ 0 then max r.negMax phi else r.negMax
             negMin := if r.negMin ≠ -pi then min r.negMin phi else r.negMin }
  else r

/-- The positive half, wren_holliday_sweep.py 94-100. -/
def phiPos (pi : ℚ) (r : PhiRange) (phi : ℚ) : PhiRange :=
  if 0 ≤ phi then
    { r with posMax := if r.posMax ≠ pi then max r.posMax phi else r.posMax
             posMin := if r.posMin ≠ 0 then min r.posMin phi else r.posMin }
  else r

/-- The loop of `_get_route_phi_range`, wren_holliday_sweep.py 74-103. -/
def phiLoop (pi : ℚ) : List ℚ → PhiRange → Option Bool → ℚ → PhiRange
  | [], r, _, _ => r
  | phi :: rest, r, sign, prev =>
    phiLoop pi rest (phiPos pi (phiNeg pi (phiCross pi r sign prev phi) phi) phi)
      (if phi ≠ 0 then phiSign sign phi else sign) phi

/-- `_get_route_phi_range`, wren_holliday_sweep.py 62-105. -/
def phiRange (pi : ℚ) : List ℚ → Option PhiRange
  | [] => none
  | phi :: rest => some (phiLoop pi (phi :: rest) ⟨0, -pi, pi, 0⟩ none phi)

/-- Whether the ranges overlap, wren_holliday_sweep.py 381-384. -/
def phiOverlap (r1 r2 : PhiRange) : Bool :=
  (decide (r1.negMin < r2.negMax) && decide (r2.negMin < r1.negMax)) ||
    (decide (r1.posMin < r2.posMax) && decide (r2.posMin < r1.posMax))

/-- What a sweep is given by: the number `pi`, the angles of the nodes, and the customers in the order of
the angles. A sweep with exactly two customers is not recognised as a sweep by `sweep_init`
(sweep.py 437-440 tests `len(coordinates[0])==2` first) but taken for the coordinates of three points,
the first of which is the depot: `two` is the order in which the customers 1 and 2 then come. -/
structure WhSweep where
  pi : ℚ
  phi : ℕ → ℚ
  nodes : List ℕ
  two : List ℕ → List ℕ

/-- The customers `sweep_init` works on when it is given the sweep of `nodes`. See sweep.py 437-446. -/
def WhSweep.read (S : WhSweep) (nodes : List ℕ) : List ℕ := if nodes.length = 2 then S.two nodes else nodes

/-- The range of angles of a route, wren_holliday_sweep.py 358-365. -/
def whRange (S : WhSweep) (rd : RouteData) : Option PhiRange :=
  if rd.is_empty then none else phiRange S.pi (rd.route.tail.dropLast.map S.phi)

/-- The loop of `np.argmax`: the index and the value of the largest so far, and the index of the next.
See wren_holliday_sweep.py 401 and 558. -/
def argmaxGo : List ℚ → ℕ → ℚ → ℕ → ℕ
  | [], best, _, _ => best
  | x :: xs, best, v, i => if v < x then argmaxGo xs i x (i + 1) else argmaxGo xs best v (i + 1)

/-- `np.argmax`. See wren_holliday_sweep.py 401 and 558. -/
def npArgmax : List ℚ → Py ℕ
  | [] => .error .valueError
  | x :: xs => .ok (argmaxGo xs 0 x 1)

/-- `np.ediff1d(l, to_end=e)`. See wren_holliday_sweep.py 401. -/
def ediff (e : ℚ) : List ℚ → List ℚ
  | [] => [e]
  | [_] => [e]
  | x :: y :: t => (y - x) :: ediff e (y :: t)

/-- The position the rebuilding starts from, wren_holliday_sweep.py 400-401. -/
def whSeed (S : WhSweep) (et : List ℕ) : Py ℕ :=
  match idx (et.map S.phi) 0, idxNeg (et.map S.phi) 1 with
  | .error e, _ => .error e
  | _, .error e => .error e
  | .ok x, .ok y => npArgmax (ediff (x + 2 * S.pi - y) (et.map S.phi))

/-- The routes rebuilt by a sweep, wren_holliday_sweep.py 386-414. -/
def whRebuild (fuel N : ℕ) (S : WhSweep) (D : ℕ → ℕ → ℚ) (d : ℕ → ℚ) (C L : Option ℚ) (rd1 rd2 : RouteData) :
    Py (Option (List RouteData)) :=
  let et_nodes := rd1.route.dropLast ++ rd2.route.tail.dropLast
  let et := S.nodes.filter fun n => decide (n ∈ et_nodes)
  match whSeed S et with
  | .error e => .error e
  | .ok seed =>
    match sweep_init fuel N D d C L (sweptOrder D) (S.read et) false .cw (.list [seed]) with
    | .error e => .error e
    | .ok none => .ok none
    | .ok (some (none, _)) => .error .typeError
    | .ok (some (some sol, _)) => .ok (some (from_solution sol D (some d)))

/-- The attempt to place the omitted customers, wren_holliday_sweep.py 430-431. The set of the omitted
customers is a list in the order of its iteration. -/
def whComplain (D : ℕ → ℕ → ℚ) (d : ℕ → ℚ) (C L : Option ℚ) (rds : List RouteData) (omitted : List ℕ)
    (refined : Bool) : Py (List RouteData × List ℕ × Bool) :=
  if omitted = [] then .ok (rds, omitted, refined)
  else
    match complain_heuristic rds omitted D C (some d) L with
    | .error e => .error e
    | .ok (rds, omitted, b) => .ok (rds, omitted, refined || b)

/-- The body of the loop that refines the two routes, wren_holliday_sweep.py 422-431. -/
def whRefineOnce (fuel : ℕ) (D : ℕ → ℕ → ℚ) (d : ℕ → ℚ) (C L : Option ℚ) (rds : List RouteData)
    (omitted : List ℕ) : Py (Option (List RouteData × List ℕ × Bool)) :=
  match inspect_heuristic fuel D rds with
  | .error e => .error e
  | .ok none => .ok none
  | .ok (some (rds, b1)) =>
    match single_heuristic fuel D d C L rds with
    | .error e => .error e
    | .ok none => .ok none
    | .ok (some (rds, b2)) =>
      match whComplain D d C L rds omitted (b1 || b2) with
      | .error e => .error e
      | .ok r => .ok (some r)

/-- The loop that refines the two routes, wren_holliday_sweep.py 420-431. -/
def whRefine (inner : ℕ) (D : ℕ → ℕ → ℚ) (d : ℕ → ℚ) (C L : Option ℚ) :
    ℕ → List RouteData → List ℕ → Py (Option (List RouteData × List ℕ))
  | 0, _, _ => .ok none
  | fuel + 1, rds, omitted =>
    match whRefineOnce inner D d C L rds omitted with
    | .error e => .error e
    | .ok none => .ok none
    | .ok (some (rds, omitted, false)) => .ok (some (rds, omitted))
    | .ok (some (rds, omitted, true)) => whRefine inner D d C L fuel rds omitted

/-- Whether the two new routes are taken, wren_holliday_sweep.py 437-446: the two routes if they are. -/
def whTake (rd1 rd2 : RouteData) (rds : List RouteData) (omitted : List ℕ) : Py (Option (RouteData × RouteData)) :=
  match rds with
  | [] => .error .indexError
  | [x] => .ok (if omitted = [] then some (x, ⟨[0, 0], 0, some 0⟩) else none)
  | x :: y :: _ =>
    .ok (if omitted = [] ∧ x.cost + y.cost + S_EPS < rd1.cost + rd2.cost then some (x, y) else none)

/-- The attempt to disentangle two routes, wren_holliday_sweep.py 386-446: the new routes. -/
def whUntie (fuel N : ℕ) (S : WhSweep) (D : ℕ → ℕ → ℚ) (d : ℕ → ℚ) (C L : Option ℚ) (rd1 rd2 : RouteData) :
    Py (Option (Option (RouteData × RouteData))) :=
  match whRebuild fuel N S D d C L rd1 rd2 with
  | .error e => .error e
  | .ok none => .ok none
  | .ok (some et) =>
    match whRefine fuel D d C L fuel (et.take 2) ((et.drop 2).flatMap fun rd => rd.route.tail.dropLast) with
    | .error e => .error e
    | .ok none => .ok none
    | .ok (some (rds, omitted)) =>
      match whTake rd1 rd2 rds omitted with
      | .error e => .error e
      | .ok r => .ok (some r)

/-- Whether both of the routes have angles and these overlap, wren_holliday_sweep.py 377-384. -/
def whTangled (r1 r2 : Option PhiRange) : Bool :=
  match r1, r2 with
  | some r1, some r2 => phiOverlap r1 r2
  | _, _ => false

/-- The body of the loop over the pairs of routes, wren_holliday_sweep.py 371-454. -/
def whDisentangleAt (fuel N : ℕ) (S : WhSweep) (D : ℕ → ℕ → ℚ) (d : ℕ → ℚ) (C L : Option ℚ) (i j : ℕ)
    (routes : List RouteData) (ranges : List (Option PhiRange)) :
    Py (Option (List RouteData × List (Option PhiRange))) :=
  match idx routes i, idx routes j with
  | .error e, _ => .error e
  | _, .error e => .error e
  | .ok rd1, .ok rd2 =>
    match idx ranges i, idx ranges j with
    | .error e, _ => .error e
    | _, .error e => .error e
    | .ok r1, .ok r2 =>
      if whTangled r1 r2 then
        match whUntie fuel N S D d C L rd1 rd2 with
        | .error e => .error e
        | .ok none => .ok none
        | .ok (some none) => .ok (some (routes, ranges))
        | .ok (some (some (x, y))) =>
          .ok (some ((routes.set i x).set j y,
            (ranges.set i (phiRange S.pi (x.route.tail.dropLast.map S.phi))).set j
              (phiRange S.pi (y.route.tail.dropLast.map S.phi))))
      else .ok (some (routes, ranges))

/-- The loop over the pairs of routes, wren_holliday_sweep.py 369-454. -/
def whDisentangleLoop (fuel N : ℕ) (S : WhSweep) (D : ℕ → ℕ → ℚ) (d : ℕ → ℚ) (C L : Option ℚ) :
    List (ℕ × ℕ) → List RouteData → List (Option PhiRange) → Py (Option (List RouteData))
  | [], routes, _ => .ok (some routes)
  | (i, j) :: rest, routes, ranges =>
    match whDisentangleAt fuel N S D d C L i j routes ranges with
    | .error e => .error e
    | .ok none => .ok none
    | .ok (some (routes, ranges)) => whDisentangleLoop fuel N S D d C L rest routes ranges

/-- `permutations(range(n), 2)`. See wren_holliday_sweep.py 369. -/
def ordPairs (n : ℕ) : List (ℕ × ℕ) :=
  (List.range n).flatMap fun i => ((List.range n).filter fun j => decide (j ≠ i)).map fun j => (i, j)

/-- `disentangle_heuristic`, wren_holliday_sweep.py 352-467. The variable `entangled` is never set to
`True` in the loop, so there is one pass; `improvement_found` is never set to `True`. -/
def disentangle_heuristic (fuel N : ℕ) (S : WhSweep) (D : ℕ → ℕ → ℚ) (d : ℕ → ℚ) (C L : Option ℚ)
    (routes : List RouteData) : Py (Option (List RouteData × Bool)) :=
  match whDisentangleLoop fuel N S D d C L (ordPairs routes.length) routes (routes.map (whRange S)) with
  | .error e => .error e
  | .ok none => .ok none
  | .ok (some routes) => .ok (some (routes, false))

/-! ## The main loop -/

/-- The instance and the options of `wren_holliday_init`. See wren_holliday_sweep.py 477-479. -/
structure WhInput where
  N : ℕ
  D : ℕ → ℕ → ℚ
  d : ℕ → ℚ
  C : Option ℚ
  L : Option ℚ
  minimize_K : Bool
  full_convergence : Bool
  sweep : WhSweep

/-- The stage of the loop that comes next. See wren_holliday_sweep.py 625-729. -/
inductive WhStage where
  | inspect | single | pair | delete | disentangle | stopped
  deriving DecidableEq

/-- The variables of the improvement phase, wren_holliday_sweep.py 617-622. The set `omitted_nodes` is
left out: it is empty at the start and nothing is ever added to it, so the branches of lines 643-668
are never taken and `omitted_were_assigned` stays `False`. -/
structure WhState where
  routes : List RouteData
  stage : WhStage
  converging : Bool
  deleted : Bool
  changed : Bool
  sol_f : ℚ
  prev_Q : Option ℚ
  prev_iter : Option ℚ

/-- Removal of the empty routes after a success, lines 636, 643, 695, 704, 711 of
wren_holliday_sweep.py. -/
def whTidy (I : WhInput) (improved : Bool) (routes : List RouteData) : List RouteData :=
  if improved && I.minimize_K then remove_empty routes else routes

/-- The beginning of an iteration, wren_holliday_sweep.py 626-629. -/
def whOpen (I : WhInput) (routes : List RouteData) : List RouteData :=
  if I.minimize_K then remove_empty routes else remove_empty routes ++ [.new]

/-- INSPECT, wren_holliday_sweep.py 626-638. -/
def whStepInspect (fuel : ℕ) (I : WhInput) (s : WhState) : Py (Option WhState) :=
  match inspect_heuristic fuel I.D (whOpen I s.routes) with
  | .error e => .error e
  | .ok none => .ok none
  | .ok (some (routes, b)) =>
    .ok (some { s with routes := whTidy I b routes, changed := b, stage := .single })

/-- The Q-point, wren_holliday_sweep.py 676-690. -/
def whQPoint (s : WhState) : WhState :=
  let sol_f := (s.routes.map (·.cost)).sum
  let reduced := match s.prev_Q with
    | none => true
    | some q => decide (sol_f < q * (95 / 100))
  { s with sol_f := sol_f, prev_Q := some sol_f, converging := !reduced
           stage := if reduced then .inspect else .pair }

/-- SINGLE and the Q-point, wren_holliday_sweep.py 642-690. -/
def whStepSingle (fuel : ℕ) (I : WhInput) (s : WhState) : Py (Option WhState) :=
  match single_heuristic fuel I.D I.d I.C I.L s.routes with
  | .error e => .error e
  | .ok none => .ok none
  | .ok (some (routes, b)) =>
    .ok (some (whQPoint { s with routes := whTidy I b routes, changed := s.changed || b }))

/-- PAIR, wren_holliday_sweep.py 693-697. -/
def whStepPair (I : WhInput) (s : WhState) : Py WhState :=
  if I.N ≤ 80 then
    match pair_heuristic I.N I.D I.d I.C I.L s.routes with
    | .error e => .error e
    | .ok (routes, b) =>
      .ok { s with routes := whTidy I b routes, changed := s.changed || b, stage := .delete }
  else .ok { s with stage := .delete }

/-- DELETE, wren_holliday_sweep.py 701-706. -/
def whStepDelete (I : WhInput) (s : WhState) : Py WhState :=
  if s.deleted then
    match delete_heuristic I.D I.d I.C I.L s.routes with
    | .error e => .error e
    | .ok (routes, b) =>
      .ok { s with routes := whTidy I b routes, deleted := b, changed := s.changed || b, stage := .disentangle }
  else .ok { s with stage := .disentangle }

/-- Whether the loop stops, wren_holliday_sweep.py 717-729. -/
def whStop (I : WhInput) (s : WhState) : WhState :=
  let same := match s.prev_iter with
    | none => false
    | some f => decide (f ≠ 0) && decide (f = s.sol_f)
  { s with prev_iter := some s.sol_f
           stage := if s.converging && ((I.full_convergence && !s.changed) || (!I.full_convergence && !s.deleted)
              || same) then .stopped else .inspect }

/-- DISENTANGLE and the test of the convergence, wren_holliday_sweep.py 710-729. -/
def whStepDisentangle (fuel : ℕ) (I : WhInput) (s : WhState) : Py (Option WhState) :=
  match disentangle_heuristic fuel I.N I.sweep I.D I.d I.C I.L s.routes with
  | .error e => .error e
  | .ok none => .ok none
  | .ok (some (routes, b)) =>
    .ok (some (whStop I { s with routes := whTidy I b routes, changed := s.changed || b }))

/-- The next stage of the loop. See wren_holliday_sweep.py 625-729. -/
def whStep (fuel : ℕ) (I : WhInput) (s : WhState) : Py (Option WhState) :=
  match s.stage with
  | .inspect => whStepInspect fuel I s
  | .single => whStepSingle fuel I s
  | .pair => match whStepPair I s with
    | .error e => .error e
    | .ok s => .ok (some s)
  | .delete => match whStepDelete I s with
    | .error e => .error e
    | .ok s => .ok (some s)
  | .disentangle => whStepDisentangle fuel I s
  | .stopped => .ok (some s)

/-- The loop of the improvement phase, wren_holliday_sweep.py 625-729, for at most so many stages; the
answer has the number of the stages that were not used. -/
def whLoop (fuel : ℕ) (I : WhInput) : ℕ → WhState → Py (Option (WhState × ℕ))
  | 0, s => .ok (some (s, 0))
  | n + 1, s =>
    if s.stage = .stopped then .ok (some (s, n + 1))
    else
      match whStep fuel I s with
      | .error e => .error e
      | .ok none => .ok none
      | .ok (some s) => whLoop fuel I n s

/-- The state in the beginning of the improvement phase, wren_holliday_sweep.py 603-622. -/
def whStart (I : WhInput) (sol : List ℕ) : WhState :=
  { routes := from_solution sol I.D (some I.d), stage := .inspect, converging := false, deleted := true,
    changed := false, sol_f := 0, prev_Q := none, prev_iter := none }

/-- The solution of the routes, wren_holliday_sweep.py 735-737. -/
def whSolution (routes : List RouteData) : List ℕ := without_empty_routes (to_solution routes)

/-- How the heuristic ends: with a solution or `None`, with an interrupt that hands out a solution, or
with an interrupt that hands out nothing. See wren_holliday_sweep.py 583-598 and 749-752. -/
inductive WhEnd where
  | returned (sol : Option (List ℕ))
  | interrupted (sol : Option (List ℕ))
  | nothing
  deriving DecidableEq

/-- The improvement phase, wren_holliday_sweep.py 601-752. An interrupt comes after `n` stages of the
loop have been done. The infinite cost and number of routes that the best solution starts with are
`none`. -/
def whPhase2 (fuel : ℕ) (I : WhInput) : List (List ℕ) → Option (List ℕ × ℚ × ℚ) → ℕ → Py (Option WhEnd)
  | [], best, _ => .ok (some (.returned (best.map (·.1))))
  | sol :: rest, best, n =>
    match whLoop fuel I n (whStart I sol) with
    | .error e => .error e
    | .ok none => .ok none
    | .ok (some (s, n)) =>
      let best := keepBetter I.D I.minimize_K best (whSolution s.routes)
      if s.stage = .stopped then whPhase2 fuel I rest best n
      else .ok (some (.interrupted (best.map (·.1))))

/-! ## The initial solutions -/

/-- `seed_node`, wren_holliday_sweep.py 530-572. A negative integer other than the named ones is not
modelled; an object of another type leads to no sweep. -/
inductive WhSeed where
  | bestOfFour | leastDense | bestAlternative
  | position (i : ℕ)
  | other

/-- One of the start positions that come from the least dense direction, wren_holliday_sweep.py 552-563.
`np.argmax` of Booleans is the first position with `True`, or 0. The direction of the lowest density,
`ldp`, comes from averages of the coordinates. -/
def whStartAt (I : WhInput) (ldp : ℚ) (cw : Bool) (i : ℕ) : ℕ :=
  let tgt := ldp + i * I.sweep.pi / 2
  let tgt := if tgt > I.sweep.pi then tgt - I.sweep.pi * 2 else tgt
  let phis := I.sweep.nodes.map I.sweep.phi
  let here := if phis.any (fun p => decide (p > tgt)) then phis.findIdx (fun p => decide (p > tgt)) else 0
  if cw then (if here = 0 then I.N - 2 else here - 1) else here

/-- `sweeps` for a direction, wren_holliday_sweep.py 529-572. -/
def whSweeps (I : WhInput) (ldp : ℚ) (seed : WhSeed) (cw : Bool) : List (ℕ × Bool) :=
  match seed with
  | .bestOfFour => (List.range 4).map fun i => (whStartAt I ldp cw i, cw)
  | .leastDense => [(whStartAt I ldp cw 0, cw)]
  | .bestAlternative => (List.range (I.N - 1)).map fun i => (i, cw)
  | .position i => [(i, cw)]
  | .other => []

/-- `directions`, wren_holliday_sweep.py 526; `true` is clockwise. A direction that does not exist makes
`sweep_init` raise a `ValueError` (as soon as there is a sweep to make: with `WhSeed.other` there is none). -/
def whDirs : SweepDir → Py (List Bool)
  | .both => .ok [true, false]
  | .cw => .ok [true]
  | .ccw => .ok [false]
  | .other => .error .valueError

/-- The initial solutions, wren_holliday_sweep.py 575-581. -/
def whInitials (fuel : ℕ) (I : WhInput) : List (ℕ × Bool) → Py (Option (List (List ℕ)))
  | [] => .ok (some [])
  | (start, cw) :: rest =>
    match sweep_init fuel I.N I.D I.d I.C I.L (sweptOrder I.D) (I.sweep.read I.sweep.nodes) false
        (if cw then .cw else .ccw) (.list [start]) with
    | .error e => .error e
    | .ok none => .ok none
    | .ok (some (none, _)) => .error .typeError
    | .ok (some (some sol, _)) =>
      match whInitials fuel I rest with
      | .error e => .error e
      | .ok none => .ok none
      | .ok (some sols) => .ok (some (sol :: sols))

/-- What an interrupt of the first phase hands out, wren_holliday_sweep.py 583-598. -/
def whHandOut (I : WhInput) (sols : List (List ℕ)) : WhEnd :=
  if sols = [] then .nothing
  else .interrupted ((sols.foldl (keepBetter I.D I.minimize_K) none).map (·.1))

/-- When an interrupt comes: in the first phase after so many solutions have been found (the one a sweep
had already found when it was interrupted is among them), or in the second phase after so many stages
of the loop. An interrupt that comes elsewhere, or within a stage, is not modelled.
See wren_holliday_sweep.py 583 and 731. -/
inductive WhWhen where
  | first (k : ℕ)
  | second (n : ℕ)

/-- `wren_holliday_init`, wren_holliday_sweep.py 477-752, without the computation of the angles. -/
def wren_holliday_init (fuel : ℕ) (I : WhInput) (ldp : ℚ) (seed : WhSeed) (dir : SweepDir) (w : WhWhen) :
    Py (Option WhEnd) :=
  match whDirs dir with
  | .error e => .error e
  | .ok dirs =>
    let sweeps := dirs.flatMap (whSweeps I ldp seed)
    match w with
    | .first k =>
      match whInitials fuel I (sweeps.take k) with
      | .error e => .error e
      | .ok none => .ok none
      | .ok (some sols) => .ok (some (whHandOut I sols))
    | .second n =>
      match whInitials fuel I sweeps with
      | .error e => .error e
      | .ok none => .ok none
      | .ok (some sols) => whPhase2 fuel I sols none n

end Verif
