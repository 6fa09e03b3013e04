import Verif.Model.Petal
import Verif.Model.InterRoute

/-! # Model of the relaxed petals, `verypy/classic_heuristics/petalvrp.py` 60-66, 80-279 and 950-961

The demands are always given, as `petal_init` sums them up. Each route has at least two nodes, so that
there is a place to insert a customer; the model gives up with an `IndexError` if it has not. -/

namespace Verif

/-- The best place for a node, petalvrp.py 125-139 and 228-243: the number of the position, the length of
the route so far and the best increase with its position. The infinite value is `none`. -/
def rxScan (D : ℕ → ℕ → ℚ) (to_move : ℕ) : List ℕ → ℕ → ℚ → Option (ℚ × ℕ) → ℚ × Option (ℚ × ℕ)
  | a :: b :: t, j, l, best =>
    let delta := D a to_move + D to_move b - D a b
    rxScan D to_move (b :: t) (j + 1) (l + D a b)
      (match best with
       | none => some (delta, j)
       | some (bd, bj) => if delta < bd then some (delta, j) else some (bd, bj))
  | _, _, l, best => (l, best)

/-- An entry of the stack of the depth first search: `last_n_i`, `to_remove_ns`, `to_remove_d`.
See petalvrp.py 114-120. -/
structure RxEntry where
  last : ℕ
  ns : List ℕ
  dem : ℚ
  deriving DecidableEq, Repr

/-- What does not change in a call of `_regain_feasibility`, petalvrp.py 80-82 and 102-110. -/
structure RxArgs where
  D : ℕ → ℕ → ℚ
  d : ℕ → ℚ
  C : Option ℚ
  L : Option ℚ
  to_move : ℕ
  r1_delta : ℚ
  r2_delta : ℚ
  discard_at_most : Option ℤ
  d_excess : Option ℚ
  l_excess : Option ℚ
  route2 : List ℕ
  r2_l : ℚ
  r2_d : ℚ
  slack : List RouteData

/-- The entries that branch out from an entry, petalvrp.py 181-184, the last one on top. -/
def rxBranch (a : RxArgs) (e : RxEntry) : List RxEntry :=
  (((slice a.route2 (e.last + 1) (a.route2.length - 1)).zipIdx).map fun c =>
    { last := e.last + 1 + c.2, ns := e.ns ++ [c.1], dem := e.dem + a.d c.1 }).reverse

/-- Enough is removed, the test of petalvrp.py 142-143. -/
def rxEnough (d_excess l_excess : Option ℚ) (to_remove_d to_remove_l : ℚ) : Bool :=
  (!truthy d_excess || decide (d_excess.getD 0 ≤ to_remove_d + C_EPS)) &&
    (!truthy l_excess || decide (l_excess.getD 0 ≤ to_remove_l + S_EPS))

/-- The customers of an entry are taken out and redistributed if this suffices, petalvrp.py 122-184. The
answer is a list of routes and the entries that are pushed. -/
def rxVisit (a : RxArgs) (e : RxEntry) : Py (List RouteData × List RxEntry) :=
  let left := a.route2.filter fun n => decide (n ∉ e.ns)
  match rxScan a.D a.to_move left 1 0 none with
  | (_, none) => .error .indexError
  | (new_r2_l, some (new_r2_delta, best_j)) =>
    let to_remove_l := (a.r2_l + a.r2_delta) - (new_r2_l + new_r2_delta)
    let new_route2 := left.take best_j ++ [a.to_move] ++ left.drop best_j
    if rxEnough a.d_excess a.l_excess e.dem to_remove_l then
      let delta_slack := -(a.r1_delta + new_r2_delta)
      if delta_slack + S_EPS < 0 then .ok ([], [])
      else
        let rd : RouteData := .of_route a.D (some a.d) ([0] ++ e.ns ++ [0])
        match do_redistribute_move rd a.slack a.D (some a.d) a.C a.L .BEST_ACCEPT (some delta_slack) 0 with
        | .error x => .error x
        | .ok none => .ok ([], [])
        | .ok (some (rds, _)) =>
          .ok ({ route := new_route2, cost := new_r2_l + new_r2_delta
                 demand := some (a.r2_d - e.dem + a.d a.to_move) } :: rds.tail, [])
    else
      match a.discard_at_most with
      | none => .ok ([], rxBranch a e)
      | some k => if k = 0 ∨ (e.ns.length : ℤ) < k then .ok ([], rxBranch a e) else .ok ([], [])

/-- The depth first search, petalvrp.py 118-186; the stack has its top first. `none` tells that the fuel,
which bounds the number of iterations, did not suffice. -/
def rxSearch (a : RxArgs) : ℕ → List RxEntry → List RouteData → Py (Option (List RouteData))
  | _, [], acc => .ok (some acc)
  | 0, _ :: _, _ => .ok none
  | fuel + 1, e :: stack, acc =>
    match rxVisit a e with
    | .error x => .error x
    | .ok (rds, es) => rxSearch a fuel (es ++ stack) (acc ++ rds)

/-- `routes_with_slack`, petalvrp.py 107-110, for the numbered routes. -/
def rxSlack (C : Option ℚ) (r2_min_d : ℚ) (ri1 ri2 : ℕ) : List (RouteData × ℕ) → Py (List RouteData)
  | [] => .ok []
  | (rd, ri) :: t =>
    match rxSlack C r2_min_d ri1 ri2 t with
    | .error e => .error e
    | .ok rest =>
      if ri = ri1 ∨ ri = ri2 then .ok rest
      else if truthy C then
        match num rd.demand with
        | .error e => .error e
        | .ok x => if r2_min_d < C.getD 0 - x + C_EPS then .ok (rd :: rest) else .ok rest
      else .ok (rd :: rest)

/-- `_regain_feasibility`, petalvrp.py 80-186. The assertion of petalvrp.py 103 holds for all routes. -/
def regain_feasibility (fuel : ℕ) (to_move : ℕ) (r1_delta r2_delta : ℚ) (rd1_aftermove : RouteData)
    (ri1 ri2 : ℕ) (discard_at_most : Option ℤ) (d_excess l_excess : Option ℚ) (route_datas : List RouteData)
    (D : ℕ → ℕ → ℚ) (d : ℕ → ℚ) (C L : Option ℚ) : Py (Option (List RouteData)) := do
  let rd2 ← idx route_datas ri2
  let r2_d ← num rd2.demand
  let inner := slice rd2.route 1 (rd2.route.length - 1)
  match (inner.map d).min? with
  | none => .error .valueError
  | some r2_min_d =>
    let slack ← rxSlack C r2_min_d ri1 ri2 route_datas.zipIdx
    let a : RxArgs :=
      { D := D, d := d, C := C, L := L, to_move := to_move, r1_delta := r1_delta, r2_delta := r2_delta
        discard_at_most := discard_at_most, d_excess := d_excess, l_excess := l_excess
        route2 := rd2.route, r2_l := rd2.cost, r2_d := r2_d, slack := slack ++ [rd1_aftermove, RouteData.new] }
    rxSearch a fuel
      (inner.zipIdx.map fun c => ({ last := c.2 + 1, ns := [c.1], dem := d c.1 } : RxEntry)).reverse []

/-- One customer and one receiving route, petalvrp.py 225-276. -/
def rxTry (fuel : ℕ) (discard_at_most : Option ℤ) (D : ℕ → ℕ → ℚ) (d : ℕ → ℚ) (C L : Option ℚ)
    (route_datas : List RouteData) (rd1 : RouteData) (ri1 i to_move : ℕ) (r1_delta : ℚ) (rd2 : RouteData)
    (ri2 : ℕ) : Py (Option (List RouteData)) :=
  match rxScan D to_move rd2.route 1 0 none with
  | (_, none) => .error .indexError
  | (_, some (best_r2_delta, best_j)) =>
    if r1_delta + best_r2_delta < -S_EPS then do
      let r1_d ← num rd1.demand
      let r2_d ← num rd2.demand
      let d_excess : Option ℚ :=
        if exceeds C C_EPS (r2_d + d to_move) then some (r2_d + d to_move - C.getD 0) else none
      let l_excess : Option ℚ :=
        if exceeds L S_EPS (rd2.cost + best_r2_delta) then some (rd2.cost + best_r2_delta - L.getD 0) else none
      let new_rd1 : RouteData :=
        { route := rd1.route.take i ++ rd1.route.drop (i + 1), cost := rd1.cost + r1_delta
          demand := some (r1_d - d to_move) }
      let new_rd2 : RouteData :=
        { route := rd2.route.take best_j ++ [to_move] ++ rd2.route.drop best_j
          cost := rd2.cost + best_r2_delta, demand := some (r2_d + d to_move) }
      if truthy d_excess || truthy l_excess then
        regain_feasibility fuel to_move r1_delta best_r2_delta new_rd1 ri1 ri2 discard_at_most d_excess
          l_excess route_datas D d C L
      else .ok (some [new_rd1, new_rd2])
    else .ok (some [])

/-- The loop over the receiving routes, petalvrp.py 220-276. -/
def rxRoutes (fuel : ℕ) (discard_at_most : Option ℤ) (D : ℕ → ℕ → ℚ) (d : ℕ → ℚ) (C L : Option ℚ)
    (route_datas : List RouteData) (rd1 : RouteData) (ri1 i to_move : ℕ) (r1_delta : ℚ) :
    List (RouteData × ℕ) → Py (Option (List RouteData))
  | [] => .ok (some [])
  | (rd2, ri2) :: t =>
    match (if ri1 = ri2 then .ok (some [])
      else rxTry fuel discard_at_most D d C L route_datas rd1 ri1 i to_move r1_delta rd2 ri2) with
    | .error e => .error e
    | .ok none => .ok none
    | .ok (some rds) =>
      match rxRoutes fuel discard_at_most D d C L route_datas rd1 ri1 i to_move r1_delta t with
      | .error e => .error e
      | .ok none => .ok none
      | .ok (some rest) => .ok (some (rds ++ rest))

/-- The loop over the customers of a route, petalvrp.py 208-276; the list holds the positions. -/
def rxNodes (fuel : ℕ) (discard_at_most : Option ℤ) (D : ℕ → ℕ → ℚ) (d : ℕ → ℚ) (C L : Option ℚ)
    (route_datas : List RouteData) (rd1 : RouteData) (ri1 : ℕ) : List ℕ → Py (Option (List RouteData))
  | [] => .ok (some [])
  | i :: t =>
    match idx rd1.route (i - 1), idx rd1.route i, idx rd1.route (i + 1) with
    | .ok remove_after, .ok to_move, .ok remove_before =>
      let r1_delta := D remove_after remove_before - D remove_after to_move - D to_move remove_before
      match rxRoutes fuel discard_at_most D d C L route_datas rd1 ri1 i to_move r1_delta route_datas.zipIdx with
      | .error e => .error e
      | .ok none => .ok none
      | .ok (some rds) =>
        match rxNodes fuel discard_at_most D d C L route_datas rd1 ri1 t with
        | .error e => .error e
        | .ok none => .ok none
        | .ok (some rest) => .ok (some (rds ++ rest))
    | _, _, _ => .error .indexError

/-- The loop over the routes, petalvrp.py 205-276. -/
def rxLoop (fuel : ℕ) (discard_at_most : Option ℤ) (D : ℕ → ℕ → ℚ) (d : ℕ → ℚ) (C L : Option ℚ)
    (route_datas : List RouteData) : List (RouteData × ℕ) → Py (Option (List RouteData))
  | [] => .ok (some [])
  | (rd1, ri1) :: t =>
    match rxNodes fuel discard_at_most D d C L route_datas rd1 ri1 (List.range' 1 (rd1.route.length - 2)) with
    | .error e => .error e
    | .ok none => .ok none
    | .ok (some rds) =>
      match rxLoop fuel discard_at_most D d C L route_datas t with
      | .error e => .error e
      | .ok none => .ok none
      | .ok (some rest) => .ok (some (rds ++ rest))

/-- `_generate_solution_relaxation_petals`, petalvrp.py 188-279. `fuel` bounds the iterations of each
depth first search. -/
def generate_relaxation_petals (fuel : ℕ) (routes : List (List ℕ)) (discard_at_most : Option ℤ)
    (D : ℕ → ℕ → ℚ) (C : Option ℚ) (d : ℕ → ℚ) (L : Option ℚ) : Py (Option (List RouteData)) :=
  let route_datas := from_routes routes D (some d)
  rxLoop fuel discard_at_most D d C L route_datas route_datas.zipIdx

/-- The argument `can_discard_multiple_customers`, petalvrp.py 674-684: an integer, `False`, `True` or
`'auto'`. -/
inductive Discard where
  | most (k : ℤ)
  | no
  | yes
  | auto
  deriving DecidableEq, Repr

/-- `discard_at_most`, petalvrp.py 674-684 and 950-957. -/
def discardMost : Discard → List (List ℕ) → Option ℤ
  | .most k, _ => some k
  | .no, _ => some 1
  | .yes, _ => none
  | .auto, routes =>
    let longest : ℤ := (routes.map List.length).foldr max 0 - 2
    [((10 : ℤ), (5 : ℤ)), (20, 3), (30, 2), (50, 1)].foldl
      (fun (m : Option ℤ) (p : ℤ × ℤ) => if p.1 < longest then some p.2 else m) none

/-- The candidates for new petals, petalvrp.py 945-961; the fuel is enough for routes with fewer than
`N` nodes, as a search visits each set of customers of a route at most once. -/
def relaxed_petals (N : ℕ) (c : Discard) (D : ℕ → ℕ → ℚ) (C : Option ℚ) (d : ℕ → ℚ) (L : Option ℚ)
    (routes : List (List ℕ)) : Py (List RouteData) :=
  match generate_relaxation_petals (2 ^ N) routes (discardMost c routes) D C d L with
  | .error e => .error e
  | .ok none => .error .notImplemented
  | .ok (some rds) => .ok rds

end Verif
