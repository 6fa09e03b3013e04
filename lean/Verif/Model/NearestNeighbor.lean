import Verif.Model.Py
import Verif.Model.Util
import Verif.Model.Sort

/-! # Model of `verypy/classic_heuristics/nearest_neighbor.py` -/

namespace Verif

/-- `_PeekQueue`, nearest_neighbor.py 37-57: `left` is `posleft+1` and `right` is `-posright`. -/
structure PeekQueue where
  l : List ℕ
  left : ℕ
  right : ℕ

/-- `__len__`, nearest_neighbor.py 56-57. -/
def PeekQueue.len (q : PeekQueue) : ℤ := (q.l.length : ℤ) - q.left - q.right

/-- `peekleft`, nearest_neighbor.py 64-67. -/
def PeekQueue.peekleft (q : PeekQueue) : Py ℕ := if q.len = 0 then .error .indexError else idx q.l q.left

/-- `popleft`, nearest_neighbor.py 69-73. -/
def PeekQueue.popleft (q : PeekQueue) : Py (ℕ × PeekQueue) :=
  if q.len = 0 then .error .indexError
  else do
    let x ← idx q.l q.left
    pure (x, { q with left := q.left + 1 })

/-- `peekright`, nearest_neighbor.py 75-78. -/
def PeekQueue.peekright (q : PeekQueue) : Py ℕ :=
  if q.len = 0 then .error .indexError else idxNeg q.l (q.right + 1)

/-- `popright`, nearest_neighbor.py 80-84. -/
def PeekQueue.popright (q : PeekQueue) : Py (ℕ × PeekQueue) :=
  if q.len = 0 then .error .indexError
  else do
    let x ← idxNeg q.l (q.right + 1)
    pure (x, { q with right := q.right + 1 })

/-- The values of `initialize_routes_with`; `other` is any other string. See nearest_neighbor.py 90-114. -/
inductive NNSeedMode
  | farthest | closest | nearest | other
  deriving DecidableEq, Repr

/-- Neighbours of a node in the order of their distance, without the first, nearest_neighbor.py 167-169.
From here on a queue is the list of its remaining entries (`C29_queue` relates it to `_PeekQueue`), without
the distances, that are never read. -/
def nnQueue (D : ℕ → ℕ → ℚ) (N i : ℕ) : List ℕ :=
  (pySort (fun a b => decide (D i a ≤ D i b)) (List.range N)).tail

/-- The loop for the seed modes "farthest" and "closest", nearest_neighbor.py 89-93 and 115-116: take
entries until one is not served. `none` is the `IndexError` of an empty queue. -/
def seedPop (served : List ℕ) : List ℕ → Option (ℕ × List ℕ)
  | [] => none
  | x :: q => if x ∈ served then seedPop served q else some (x, q)

/-- The inner `while` of the mode "nearest", nearest_neighbor.py 101-107: remove the served nodes from the
front. Returns the queue and the variable `nearest`. -/
def nearestPop (served : List ℕ) : List ℕ → Option ℕ → List ℕ × Option ℕ
  | [], nearest => ([], nearest)
  | x :: q, _ => if x ∈ served then nearestPop served q (some x) else (x :: q, some x)

/-- Variables of the `for` loop of the mode "nearest": `seed_node`, `nearest`, `nearest_distance` (`none` is
infinity) and the queues. See nearest_neighbor.py 95-110. -/
structure NearestState where
  seed : Option ℕ
  nearest : Option ℕ
  dist : Option ℚ
  queues : List (List ℕ)

/-- `x < nearest_distance`. See nearest_neighbor.py 108. -/
def nearLess (x : ℚ) (dist : Option ℚ) : Bool :=
  match dist with
  | none => true
  | some t => decide (x < t)

/-- The body of the `for` loop of the mode "nearest", nearest_neighbor.py 97-110. -/
def nearestStep (D : ℕ → ℕ → ℚ) (served : List ℕ) (s : NearestState) (i : ℕ) : Py NearestState :=
  if i ∈ served then .ok s
  else
    let seed := some (s.seed.getD i)
    match idx s.queues i with
    | .error e => .error e
    | .ok q =>
      let (q', nearest) := nearestPop served q s.nearest
      match nearest with
      | none => .error .nameError
      | some x =>
        if nearLess (D i x) s.dist then .ok ⟨some i, some x, some (D i x), s.queues.set i q'⟩
        else .ok ⟨seed, some x, s.dist, s.queues.set i q'⟩

/-- The `for` loop of the mode "nearest". See nearest_neighbor.py 96-110. -/
def nearestLoop (D : ℕ → ℕ → ℚ) (served : List ℕ) : List ℕ → NearestState → Py NearestState
  | [], s => .ok s
  | i :: is, s =>
    match nearestStep D served s i with
    | .error e => .error e
    | .ok s => nearestLoop D served is s

/-- `get_seed_node`, nearest_neighbor.py 86-117. In the mode "nearest" the loop is never repeated, as the
seed is not served; `served[None]` is a `TypeError`. -/
def get_seed_node (mode : NNSeedMode) (D : ℕ → ℕ → ℚ) (queues : List (List ℕ)) (served : List ℕ) :
    Py (ℕ × List (List ℕ)) :=
  match mode with
  | .farthest =>
    match idx queues 0 with
    | .error e => .error e
    | .ok q =>
      match seedPop served q with
      | none => .error .indexError
      | some (x, q') => .ok (x, queues.set 0 q')
  | .closest =>
    match idx queues 0 with
    | .error e => .error e
    | .ok q =>
      match seedPop served q.reverse with
      | none => .error .indexError
      | some (x, q') => .ok (x, queues.set 0 q'.reverse)
  | .nearest =>
    match nearestLoop D served (pyRange 1 queues.length) ⟨none, none, none, queues⟩ with
    | .error e => .error e
    | .ok s =>
      match s.seed with
      | none => .error .typeError
      | some x => .ok (x, s.queues)
  | .other => .error .valueError

/-- An emerging route: its customers, the one added last, and what `route_demands` and `route_costs` (the
cost without the edges of the depot) have for it. See nearest_neighbor.py 180-183. -/
structure NNRoute where
  nodes : List ℕ
  prev : ℕ
  demand : ℚ
  cost : ℚ
  deriving DecidableEq, Repr

/-- The state of the main loop. `routes` has `none` for a route to initialise. See nearest_neighbor.py 164-186. -/
structure NNState where
  queues : List (List ℕ)
  served : List ℕ
  sol : List ℕ
  routes : List (Option NNRoute)
  k : ℕ
  deriving DecidableEq, Repr

/-- `if k==emerging_route_count: k = 0`, nearest_neighbor.py 292-293. -/
def nnTurn (count k : ℕ) : ℕ := if k = count then 0 else k

/-- A new emerging route, nearest_neighbor.py 191-200. -/
def nnSeed (D : ℕ → ℕ → ℚ) (d : ℕ → ℚ) (C : Option ℚ) (count : ℕ) (mode : NNSeedMode) (s : NNState) : Py NNState :=
  match get_seed_node mode D s.queues s.served with
  | .error e => .error e
  | .ok (x, queues) =>
    .ok { s with
      queues := queues, served := x :: s.served, k := nnTurn count s.k,
      routes := s.routes.set s.k (some ⟨[x], x, if truthy C then d x else 0, 0⟩) }

/-- The extension of an emerging route with the customer `nn`, nearest_neighbor.py 209-289. The route is
stored if a limit would be broken. -/
def nnExtend (D : ℕ → ℕ → ℚ) (d : ℕ → ℚ) (C L : Option ℚ) (count : ℕ) (endOnly : Bool) (s : NNState)
    (queues : List (List ℕ)) (r : NNRoute) (first last nn : ℕ) : NNState :=
  let deltaEnd := D 0 first + D last nn + D nn 0
  let deltaStart := D 0 nn + D nn first + D last 0
  let atStart := !endOnly && decide (deltaStart < deltaEnd)
  let delta := if atStart then deltaStart else deltaEnd
  if exceeds C C_EPS (r.demand + d nn) || exceeds L S_EPS (r.cost + delta) then
    { s with
      queues := queues, sol := s.sol ++ (r.nodes ++ [0]), routes := s.routes.set s.k none, k := nnTurn count s.k }
  else
    let demand := if truthy C then r.demand + d nn else r.demand
    let r' : NNRoute := if atStart then ⟨nn :: r.nodes, nn, demand, if truthy L then r.cost + D nn first else r.cost⟩
      else ⟨r.nodes ++ [nn], nn, demand, if truthy L then r.cost + D last nn else r.cost⟩
    { s with
      queues := queues.modify r.prev List.tail, served := nn :: s.served, routes := s.routes.set s.k (some r'),
      k := nnTurn count (s.k + 1) }

/-- The body of the main loop, nearest_neighbor.py 187-293, without a callback to improve routes. -/
def nnStep (D : ℕ → ℕ → ℚ) (d : ℕ → ℚ) (C L : Option ℚ) (count : ℕ) (mode : NNSeedMode) (endOnly : Bool)
    (s : NNState) : Py NNState :=
  match idx s.routes s.k with
  | .error e => .error e
  | .ok none => nnSeed D d C count mode s
  | .ok (some r) =>
    match idx s.queues r.prev with
    | .error e => .error e
    | .ok q =>
      match seedPop s.served q with
      | none => .error .indexError
      | some (nn, q') =>
        match idx r.nodes 0, idx r.nodes (r.nodes.length - 1) with
        | .ok first, .ok last =>
          .ok (nnExtend D d C L count endOnly s (s.queues.set r.prev (nn :: q')) r first last nn)
        | .error e, _ => .error e
        | _, .error e => .error e

/-- The main loop: the state in which the `IndexError` that ends it is raised; `none` if out of fuel.
See nearest_neighbor.py 187-295. -/
def nnLoop (D : ℕ → ℕ → ℚ) (d : ℕ → ℚ) (C L : Option ℚ) (count : ℕ) (mode : NNSeedMode) (endOnly : Bool) :
    ℕ → NNState → Py (Option NNState)
  | 0, _ => .ok none
  | fuel + 1, s =>
    match nnStep D d C L count mode endOnly s with
    | .ok s' => nnLoop D d C L count mode endOnly fuel s'
    | .error .indexError => .ok (some s)
    | .error e => .error e

/-- The state before the main loop, nearest_neighbor.py 163-186. -/
def nnInit (D : ℕ → ℕ → ℚ) (N count : ℕ) (forbidden : List ℕ) : NNState :=
  ⟨(List.range N).map (nnQueue D N), 0 :: forbidden, [0], List.replicate count none, 0⟩

/-- Closing the emerging routes, nearest_neighbor.py 304-307. -/
def nnClose (s : NNState) : List ℕ :=
  s.sol ++ s.routes.flatMap fun r => match r with
    | none => []
    | some r => r.nodes ++ [0]

/-- `nearest_neighbor_init`, nearest_neighbor.py 119-329, without a callback; the outer `none` is out of
fuel, the inner `none` the value `None`. -/
def nearest_neighbor_init (D : ℕ → ℕ → ℚ) (d : ℕ → ℚ) (C L : Option ℚ) (N count : ℕ) (mode : NNSeedMode)
    (endOnly : Bool) (forbidden : List ℕ) (fuel : ℕ) : Py (Option (Option (List ℕ))) :=
  match nnLoop D d C L count mode endOnly fuel (nnInit D N count forbidden) with
  | .error e => .error e
  | .ok none => .ok none
  | .ok (some s) => .ok (some (if (nnClose s).length = 1 then none else some (nnClose s)))

/-- The solution raised when an interrupt comes between two rounds of the main loop, nearest_neighbor.py
295-324. A list plus `None` is a `TypeError`. -/
def nnInterrupted (N : ℕ) (s : NNState) : Py (Option (List ℕ)) :=
  let sol := nnClose s
  let unrouted := ((List.range N).filter fun n => ! decide (n ∈ sol)).map fun n => [n]
  if sol.length > 1 then
    match routes2sol unrouted with
    | none => .error .typeError
    | some u => .ok (some (sol.dropLast ++ u))
  else .ok (routes2sol unrouted)

end Verif
