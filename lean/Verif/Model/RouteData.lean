import Verif.Model.Util

/-! # Model of `verypy/routedata.py` -/

namespace Verif

/-- `RouteData`, routedata.py 4-19. The auxiliary lists are modelled by the result of
`update_auxiliary_data` below, the node set by a list of its elements (only membership is used).
The operators store `None` as the demand when there is no capacity constraint. -/
structure RouteData where
  route : List ℕ
  cost : ℚ
  demand : Option ℚ
  deriving DecidableEq, Repr

/-- `RouteData()`, routedata.py 5-9. -/
def RouteData.new : RouteData := { route := [0, 0], cost := 0, demand := some 0 }

/-- `is_empty`, routedata.py 41-45. -/
def RouteData.is_empty (rd : RouteData) : Bool := rd.route = [] || rd.route = [0, 0]

/-- `l[-k] = v` for a positive `k`. See routedata.py 72 and 75. -/
def setIdxNeg (l : List ℚ) (k : ℕ) (v : ℚ) : Py (List ℚ) :=
  if k = 0 ∨ l.length < k then .error .indexError else setIdx l (l.length - k) v

/-- State of the loop of `update_auxiliary_data`. `i` is the absolute value of the index. See routedata.py 58-66. -/
structure AuxState where
  cum_d : ℚ
  cum_l : ℚ
  prev_n : ℕ
  i : ℕ
  route_d : List ℚ
  route_l : List ℚ

/-- The loop of `update_auxiliary_data`, routedata.py 69-77. `wr` writes at the index `i` (forward)
or at `-i` (backward). -/
def auxLoop (D : ℕ → ℕ → ℚ) (d : Option (ℕ → ℚ)) (wr : List ℚ → ℕ → ℚ → Py (List ℚ)) :
    List ℕ → AuxState → Py AuxState
  | [], s => .ok s
  | n :: t, s => do
    let s ← match d with
      | none => pure s
      | some d =>
        let cum_d := s.cum_d + d n
        let route_d ← wr s.route_d s.i cum_d
        pure { s with cum_d := cum_d, route_d := route_d }
    let cum_l := s.cum_l + D s.prev_n n
    let route_l ← wr s.route_l s.i cum_l
    auxLoop D d wr t { s with cum_l := cum_l, route_l := route_l, prev_n := n, i := s.i + 1 }

/-- `update_auxiliary_data(D, d, direction)`, routedata.py 50-84, for one direction: `true` is 1 and
`false` is -1. Returns the pair (`route_l`, `route_d`) that is stored in `fwd_l, fwd_d` or
`rwd_l, rwd_d`. The slice `route[1::1]` is `drop 1`, and `route[-2::-1]` the reversed list of all
but the last. -/
def update_auxiliary_data (route : List ℕ) (D : ℕ → ℕ → ℚ) (d : Option (ℕ → ℚ)) (fwd : Bool) :
    Py (List ℚ × List ℚ) := do
  let zeros : List ℚ := List.replicate route.length 0
  let s ← if fwd then auxLoop D d setIdx (route.drop 1) ⟨0, 0, 0, 1, zeros, zeros⟩
    else auxLoop D d setIdxNeg route.dropLast.reverse ⟨0, 0, 0, 2, zeros, zeros⟩
  pure (s.route_l, s.route_d)

/-- `normalize`, routedata.py 86-89. -/
def RouteData.normalize (rd : RouteData) : Py RouteData := do
  let a ← idx rd.route 1
  let b ← idxNeg rd.route 2
  if a > b then pure { rd with route := rd.route.reverse } else pure rd

/-- The `while` of routedata.py 96-97; `fuel` bounds the number of iterations (the length of the
route is enough). -/
def nsStart (route : List ℕ) : ℕ → ℕ → Py ℕ
  | 0, start => .ok start
  | fuel + 1, start => do
    let n ← idx route start
    if n = 0 ∧ start + 1 < route.length then nsStart route fuel (start + 1) else .ok start

/-- The `while` of routedata.py 100-101; the index `end_to` is negative and given by its absolute
value. -/
def nsEnd (route : List ℕ) : ℕ → ℕ → Py ℕ
  | 0, e => .ok e
  | fuel + 1, e => do
    let n ← idxNeg route e
    if n = 0 ∧ e < route.length then nsEnd route fuel (e + 1) else .ok e

/-- `_route_to_nodeset`, routedata.py 91-106. The set is the list of the elements put in it. In
`route[start_from:end_to+1]` the end is `len(route)-(e-1)`. -/
def route_to_nodeset (route : List ℕ) : Py (List ℕ) :=
  if route = [] ∨ route = [0, 0] then .ok []
  else do
    let start ← nsStart route route.length 0
    let last ← idxNeg route 1
    if last = 0 then
      let e ← nsEnd route route.length 2
      .ok (slice route start (route.length - (e - 1)))
    else .ok (route.drop start)

/-- One record of `from_routes`, routedata.py 113-116, without the node set (the function above). -/
def RouteData.of_route (D : ℕ → ℕ → ℚ) (d : Option (ℕ → ℚ)) (r : List ℕ) : RouteData :=
  { route := r, cost := objf r D, demand := some (totald r d) }

/-- `from_routes`, routedata.py 108-117. -/
def from_routes (routes : List (List ℕ)) (D : ℕ → ℕ → ℚ) (d : Option (ℕ → ℚ)) : List RouteData :=
  routes.map (RouteData.of_route D d)

/-- `from_solution`, routedata.py 119-122. -/
def from_solution (sol : List ℕ) (D : ℕ → ℕ → ℚ) (d : Option (ℕ → ℚ)) : List RouteData :=
  from_routes (sol2routes sol) D d

/-- `to_solution`, routedata.py 124-126. -/
def to_solution (rds : List RouteData) : List ℕ := 0 :: rds.flatMap (fun rd => rd.route.drop 1)

end Verif
