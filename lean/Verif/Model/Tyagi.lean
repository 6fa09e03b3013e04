import Verif.Model.NearestNeighbor
import Verif.Model.Sweep
import Mathlib.Data.Rat.Floor

/-! # Model of `verypy/classic_heuristics/tyagi_nearest_neighbor.py`, and of `nearest_neighbor_init` with a
callback for improving routes -/

namespace Verif

/-- `_PeekQueue`, nearest_neighbor.py 37-57, with the keys of its entries; `left` is `posleft+1`. The heuristic
never takes entries from the right, so `posright` stays 0. -/
structure KeyQueue where
  l : List (ℕ × ℚ)
  left : ℕ
  deriving DecidableEq, Repr

/-- The queue of the node `i`, nearest_neighbor.py 167-169. -/
def keyQueue (D : ℕ → ℕ → ℚ) (N i : ℕ) : KeyQueue :=
  ⟨(pySort (fun a b => decide (D i a ≤ D i b)) (List.range N)).map fun n => (n, D i n), 1⟩

/-- The entries left in the queue. See nearest_neighbor.py 56-67. -/
def KeyQueue.rest (q : KeyQueue) : List (ℕ × ℚ) := q.l.drop q.left

/-- `while True: peekleft; if served: popleft else: break`, nearest_neighbor.py 214-220 and
tyagi_nearest_neighbor.py 114-119, on the entries left: the first node that is not served, and where it is. An
exhausted queue, `none`, is the `IndexError` of `peekleft`. -/
def keySkip (served : ℕ → Bool) : List (ℕ × ℚ) → ℕ → Option (ℕ × ℕ)
  | [], _ => none
  | e :: t, pos => if served e.1 then keySkip served t (pos + 1) else some (e.1, pos)

/-- The queues of all nodes with the one of `i` moved to the position `pos`. See nearest_neighbor.py 69-73. -/
def setLeft (queues : ℕ → KeyQueue) (i pos : ℕ) : ℕ → KeyQueue :=
  fun j => if j = i then { queues i with left := pos } else queues j

/-- `_push_if_popped_to_peek_queue`, tyagi_nearest_neighbor.py 75-95; the branch for the right end needs
`posright<-1`, which never holds. -/
def keyPush (q : KeyQueue) (n : ℕ) (key : ℚ) : Py KeyQueue :=
  if q.left = 0 then .ok q
  else
    match idx q.l (q.left - 1) with
    | .error e => .error e
    | .ok e => if e.2 ≤ key then .ok ⟨q.l.set (q.left - 1) (n, key), q.left - 1⟩ else .ok q

/-- Whether a candidate for the interchange is taken, tyagi_nearest_neighbor.py 135-150: `y` in the place of
the customer at position `i` of the route. The variables `best_d_delta` and `best_l_delta` are never updated, so
they are 0 here. -/
def tyImproves (D : ℕ → ℕ → ℚ) (d : ℕ → ℚ) (C L : Option ℚ) (route : List ℕ) (rd rl : ℚ) (y i : ℕ) : Py Bool :=
  match idx route i, idx route (i - 1), idx route (i + 1) with
  | .ok x, .ok a, .ok b =>
    let dDelta := -d x + d y
    let lDelta := -D a x - D x b + D a y + D y b
    .ok (!exceeds L S_EPS (rl + lDelta) && !exceeds C C_EPS (rd + dDelta) &&
      ((truthy C && decide (dDelta > 0)) || (!truthy C && truthy L && decide (lDelta < 0))))
  | .error e, _, _ => .error e
  | _, .error e, _ => .error e
  | _, _, .error e => .error e

/-- The loop over the candidates, tyagi_nearest_neighbor.py 131-152; the last argument is
`to_add_back_idx`. -/
def tyChoose (D : ℕ → ℕ → ℚ) (d : ℕ → ℚ) (C L : Option ℚ) (route : List ℕ) (rd rl : ℚ) (y : ℕ) :
    List ℕ → Option ℕ → Py (Option ℕ)
  | [], best => .ok best
  | i :: is, best =>
    match tyImproves D d C L route rd rl y i with
    | .error e => .error e
    | .ok b => tyChoose D d C L route rd rl y is (if b then some i else best)

/-- Pushing the removed customer back, tyagi_nearest_neighbor.py 160-163. The queues are a function here, and
each is changed on its own. -/
def tyPushAll (D : ℕ → ℕ → ℚ) (served : ℕ → Bool) (x : ℕ) : List ℕ → (ℕ → KeyQueue) → Py (ℕ → KeyQueue)
  | [], queues => .ok queues
  | i :: is, queues =>
    if (i = 0 || !served i) && i ≠ x then
      match keyPush (queues i) x (D i x) with
      | .error e => .error e
      | .ok q => tyPushAll D served x is fun j => if j = i then q else queues j
    else tyPushAll D served x is queues

/-- `route_end_interchange`, tyagi_nearest_neighbor.py 96-175. Position -2 of the route is written as
`len(route)-2`. Returns the route and what it leaves in `served` and in the queues. -/
def route_end_interchange (D : ℕ → ℕ → ℚ) (d : ℕ → ℚ) (C L : Option ℚ) (N : ℕ) (all : Bool) (route : List ℕ)
    (rd rl : ℚ) (served : ℕ → Bool) (queues : ℕ → KeyQueue) : Py (List ℕ × (ℕ → Bool) × (ℕ → KeyQueue)) :=
  match idxNeg route 2 with
  | .error e => .error e
  | .ok last =>
    match keySkip served (queues last).rest (queues last).left with
    | none => .error .indexError
    | some (y, pos) =>
      let queues := setLeft queues last pos
      let candidates := if all then pyRange 1 (route.length - 1) else [route.length - 2, 1]
      match tyChoose D d C L route rd rl y candidates none with
      | .error e => .error e
      | .ok none => .ok (route, served, queues)
      | .ok (some i) =>
        match idx route i with
        | .error e => .error e
        | .ok x =>
          let served := setRouted served y true
          match tyPushAll D served x (List.range N) queues with
          | .error e => .error e
          | .ok queues => .ok (slice route 0 i ++ [y] ++ route.drop (i + 1), setRouted served x false, queues)

/-- The callback for improving routes: route, its demand and cost, `served` and the queues.
See nearest_neighbor.py 245-247. -/
abbrev NNCallback := List ℕ → ℚ → ℚ → (ℕ → Bool) → (ℕ → KeyQueue) → Py (List ℕ × (ℕ → Bool) × (ℕ → KeyQueue))

/-- The state of the main loop of `nearest_neighbor_init` with one emerging route. See nearest_neighbor.py 164-186. -/
structure TyState where
  queues : ℕ → KeyQueue
  served : ℕ → Bool
  sol : List ℕ
  route : Option NNRoute

/-- A new route, nearest_neighbor.py 89-93, 115-116 and 195-200: the first node of the queue of the depot that is
not served is taken from the queue. -/
def tySeed (d : ℕ → ℚ) (C : Option ℚ) (s : TyState) : Py TyState :=
  match keySkip s.served (s.queues 0).rest (s.queues 0).left with
  | none => .error .indexError
  | some (x, pos) =>
    .ok ⟨setLeft s.queues 0 (pos + 1), setRouted s.served x true, s.sol, some ⟨[x], x, if truthy C then d x else 0, 0⟩⟩

/-- The extension of the route with `nn`, found at position `pos` of the queue of `r.prev`, nearest_neighbor.py
209-289. -/
def tyExtend (D : ℕ → ℕ → ℚ) (d : ℕ → ℚ) (C L : Option ℚ) (endOnly : Bool) (cb : NNCallback) (s : TyState)
    (r : NNRoute) (first last nn pos : ℕ) : Py TyState :=
  let deltaEnd := D 0 first + D last nn + D nn 0
  let deltaStart := D 0 nn + D nn first + D last 0
  let atStart := !endOnly && decide (deltaStart < deltaEnd)
  let delta := if atStart then deltaStart else deltaEnd
  if exceeds C C_EPS (r.demand + d nn) || exceeds L S_EPS (r.cost + delta) then
    match cb ([0] ++ r.nodes ++ [0]) r.demand (D 0 first + r.cost + D last 0) s.served (setLeft s.queues r.prev pos) with
    | .error e => .error e
    | .ok (route, served, queues) => .ok ⟨queues, served, s.sol ++ route.drop 1, none⟩
  else
    let demand := if truthy C then r.demand + d nn else r.demand
    let r' : NNRoute := if atStart then ⟨nn :: r.nodes, nn, demand, if truthy L then r.cost + D nn first else r.cost⟩
      else ⟨r.nodes ++ [nn], nn, demand, if truthy L then r.cost + D last nn else r.cost⟩
    .ok ⟨setLeft s.queues r.prev (pos + 1), setRouted s.served nn true, s.sol, some r'⟩

/-- The body of the main loop, nearest_neighbor.py 187-293, with a callback, one emerging route and the seed mode
"farthest". -/
def tyStep (D : ℕ → ℕ → ℚ) (d : ℕ → ℚ) (C L : Option ℚ) (endOnly : Bool) (cb : NNCallback) (s : TyState) :
    Py TyState :=
  match s.route with
  | none => tySeed d C s
  | some r =>
    match idx r.nodes 0, idxNeg r.nodes 1 with
    | .ok first, .ok last =>
      match keySkip s.served (s.queues r.prev).rest (s.queues r.prev).left with
      | none => .error .indexError
      | some (nn, pos) => tyExtend D d C L endOnly cb s r first last nn pos
    | .error e, _ => .error e
    | _, .error e => .error e

/-- The main loop: the state in which the `IndexError` that ends it is raised; `none` if out of fuel.
See nearest_neighbor.py 187-295. -/
def tyLoop (D : ℕ → ℕ → ℚ) (d : ℕ → ℚ) (C L : Option ℚ) (endOnly : Bool) (cb : NNCallback) :
    ℕ → TyState → Py (Option TyState)
  | 0, _ => .ok none
  | fuel + 1, s =>
    match tyStep D d C L endOnly cb s with
    | .ok s' => tyLoop D d C L endOnly cb fuel s'
    | .error .indexError => .ok (some s)
    | .error e => .error e

/-- The state before the main loop, nearest_neighbor.py 163-186. -/
def tyStart (D : ℕ → ℕ → ℚ) (N : ℕ) (forbidden : List ℕ) : TyState :=
  ⟨keyQueue D N, fun n => n = 0 || decide (n ∈ forbidden), [0], none⟩

/-- Closing the emerging route, nearest_neighbor.py 304-307. -/
def tyClose (s : TyState) : List ℕ :=
  match s.route with
  | none => s.sol
  | some r => s.sol ++ r.nodes ++ [0]

/-- `nearest_neighbor_init`, nearest_neighbor.py 119-329, with a callback, one emerging route and the seed mode
"farthest". The outer `none` is out of fuel, the inner `none` the value `None`. -/
def nn_with_callback (D : ℕ → ℕ → ℚ) (d : ℕ → ℚ) (C L : Option ℚ) (N : ℕ) (endOnly : Bool) (forbidden : List ℕ)
    (cb : NNCallback) (fuel : ℕ) : Py (Option (Option (List ℕ))) :=
  match tyLoop D d C L endOnly cb fuel (tyStart D N forbidden) with
  | .error e => .error e
  | .ok none => .ok none
  | .ok (some s) => .ok (some (if (tyClose s).length = 1 then none else some (tyClose s)))

/-- The values of `select_grouping`; `other` is any other string. See tyagi_nearest_neighbor.py 264-275. -/
inductive TySelect
  | balanced | maxDemand | minPenalty | other
  deriving DecidableEq, Repr

/-- `_calculate_penalty`, tyagi_nearest_neighbor.py 50-55. -/
def tyPenalty (D : ℕ → ℕ → ℚ) (d : ℕ → ℚ) (c : ℚ) (sol : List ℕ) : ℚ :=
  ((sol2routes sol).map fun r => c - totald r (some d) * objf r D).sum

/-- The loop of `_calculate_route_demand_statistics`, tyagi_nearest_neighbor.py 63-69: the demand of the route so
far, and `route_demands` with the index of its next entry. -/
def tyDemands (d : ℕ → ℚ) : List ℕ → ℚ → List ℚ → ℕ → Py (List ℚ)
  | [], _, rs, _ => .ok rs
  | n :: sol, t, rs, i =>
    if n = 0 ∧ t ≠ 0 then
      match setIdx rs i t with
      | .error e => .error e
      | .ok rs => tyDemands d sol 0 rs (i + 1)
    else tyDemands d sol (t + d n) rs i

/-- `_calculate_route_demand_statistics`, tyagi_nearest_neighbor.py 57-73. The standard deviation is replaced by
its square, the variance, which gives the same order. -/
def tyStatistics (d : ℕ → ℚ) (K : ℕ) (sol : List ℕ) : Py (ℚ × ℚ) :=
  match tyDemands d sol 0 (List.replicate K 0) 0 with
  | .error e => .error e
  | .ok rs =>
    let avg := rs.sum / rs.length
    .ok (-((rs.map fun t => (t - avg) ^ 2).sum / rs.length), avg)

/-- The utilization of a grouping, tyagi_nearest_neighbor.py 262-275 and 317-323: `K` is the number of routes for
"balanced" and `K'` the one for "max_demand". A number is a pair with 0. -/
def tyUtilization (D : ℕ → ℕ → ℚ) (d : ℕ → ℚ) (c : ℚ) (sel : TySelect) (K K' : ℕ) (sol : List ℕ) : Py (ℚ × ℚ) :=
  match sel with
  | .balanced => tyStatistics d K sol
  | .maxDemand => .ok ((sol.map d).sum / (K' * c), 0)
  | .minPenalty => .ok (tyPenalty D d c sol, 0)
  | .other => .error .valueError

/-- `a > b` on the utilizations; tuples are compared from the left. See tyagi_nearest_neighbor.py 330. -/
def tyGreater (a b : ℚ × ℚ) : Bool := decide (a.1 > b.1 ∨ (a.1 = b.1 ∧ a.2 > b.2))

/-- The state of the loop over the candidates for a route of their own: `solution`, `best_C_utilization` and the
values `solution` had before. See tyagi_nearest_neighbor.py 260-273. -/
structure TyBest where
  sol : List ℕ
  util : ℚ × ℚ
  seen : List (List ℕ)
  deriving DecidableEq, Repr

/-- The body of the loop over the candidates, tyagi_nearest_neighbor.py 301-333. `best_K` is not updated. -/
def tyCandidate (D : ℕ → ℕ → ℚ) (d : ℕ → ℚ) (c : ℚ) (sel : TySelect) (bestK : ℕ) (n : ℕ) (cndt : Option (List ℕ))
    (b : TyBest) : Py TyBest :=
  match cndt with
  | none => .error .attributeError
  | some sol =>
    let K := sol.count 0 - 1 + 1
    if K > bestK then .ok b
    else
      match tyUtilization D d c sel (K - 1) K sol with
      | .error e => .error e
      | .ok u => .ok (if tyGreater u b.util then ⟨sol ++ [n, 0], u, b.seen ++ [b.sol]⟩ else b)

/-- The loop over the candidates, tyagi_nearest_neighbor.py 301-333. -/
def tyCandidates (D : ℕ → ℕ → ℚ) (d : ℕ → ℚ) (c : ℚ) (L : Option ℚ) (N : ℕ) (cb : NNCallback) (sel : TySelect)
    (bestK fuel : ℕ) : List ℕ → TyBest → Py (Option TyBest)
  | [], b => .ok (some b)
  | n :: ns, b =>
    match nn_with_callback D d (some c) L N false [n] cb fuel with
    | .error e => .error e
    | .ok none => .ok none
    | .ok (some cndt) =>
      match tyCandidate D d c sel bestK n cndt b with
      | .error e => .error e
      | .ok b => tyCandidates D d c L N cb sel bestK fuel ns b

/-- `may_have_single_node_route`, tyagi_nearest_neighbor.py 244-248; `min` of no demands is a `ValueError`. -/
def tyMayHaveSingle (d : ℕ → ℚ) (c : ℚ) (N : ℕ) : Py Bool :=
  let tot := ((List.range N).map d).sum
  let K := ⌈tot / c⌉
  match ((pyRange 1 N).map d).min? with
  | none => .error .valueError
  | some m => .ok (decide (m > tot - c * (K - 1)))

/-- The candidates for a route of their own, tyagi_nearest_neighbor.py 284-299; `max` of nothing is a
`ValueError`. -/
def tySingles (D : ℕ → ℕ → ℚ) (d : ℕ → ℚ) (c : ℚ) (N : ℕ) (large : Bool) : Py (List ℕ) :=
  if large then
    match ((List.range N).map (D 0)).max? with
    | none => .error .valueError
    | some m => .ok ((pyRange 1 N).filter fun n => decide (d n > 1 / 2 * c) && decide (D 0 n < 1 / 2 * m))
  else .ok (pyRange 1 N)

/-- The grouping with a capacity: the utilization of the first grouping and the search for one with a customer
served alone, tyagi_nearest_neighbor.py 254-333. `none` is out of fuel. -/
def tyGrouping (D : ℕ → ℕ → ℚ) (d : ℕ → ℚ) (c : ℚ) (L : Option ℚ) (N : ℕ) (large all : Bool) (sel : TySelect)
    (maySingle : Bool) (fuel : ℕ) (sol : List ℕ) : Py (Option TyBest) :=
  let routes := sol2routes sol
  match tyUtilization D d c sel routes.length routes.length sol with
  | .error e => .error e
  | .ok u =>
    let singles := routes.filter fun r => r.length = 3
    if maySingle || decide (singles.length > 0) then
      match tySingles D d c N large with
      | .error e => .error e
      | .ok ns =>
        tyCandidates D d c L N (route_end_interchange D d (some c) L N all) sel (sol.count 0 - 1) fuel ns ⟨sol, u, []⟩
    else .ok (some ⟨sol, u, []⟩)

/-- The routing of the groups, tyagi_nearest_neighbor.py 339-340 and 347. -/
def tyRouting (tsp : Router) (sol : List ℕ) : Option (List ℕ) :=
  routes2sol ((sol2routes sol).map fun r => (tsp r.dropLast).1)

/-- `tyagi_init`, tyagi_nearest_neighbor.py 178-347. The outer `none` is out of fuel. Besides the result, which may
be `None`, it returns the values that the variable `solution` has, in order; it is what an interrupt after the
first grouping hands out. A first grouping that is `None` has no routes, and `None` is what is returned then,
unless a capacity is set, in which case an exception was raised before. -/
def tyagi_init (D : ℕ → ℕ → ℚ) (d : ℕ → ℚ) (C L : Option ℚ) (N : ℕ) (large all : Bool) (sel : TySelect) (tsp : Router)
    (fuel : ℕ) : Py (Option (Option (List ℕ) × List (List ℕ))) :=
  let first := nn_with_callback D d C L N true [] (route_end_interchange D d C L N all) fuel
  let grouping (maySingle : Option (ℚ × Bool)) : Py (Option (Option (List ℕ) × List (List ℕ))) :=
    match first with
    | .error e => .error e
    | .ok none => .ok none
    | .ok (some none) => if maySingle.isSome then .error .typeError else .ok (some (none, []))
    | .ok (some (some sol)) =>
      match maySingle with
      | none => .ok (some (tyRouting tsp sol, [sol]))
      | some (c, b) =>
        match tyGrouping D d c L N large all sel b fuel sol with
        | .error e => .error e
        | .ok none => .ok none
        | .ok (some b) => .ok (some (tyRouting tsp b.sol, b.seen ++ [b.sol]))
  match C with
  | none => grouping none
  | some c =>
    if c = 0 then grouping none
    else
      match tyMayHaveSingle d c N with
      | .error e => .error e
      | .ok b => grouping (some (c, b))

end Verif
