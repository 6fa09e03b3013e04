import Verif.Model.Util
import Verif.Model.Sort

/-! # Model of `verypy/classic_heuristics/parallel_savings.py` -/

namespace Verif

/-- A saving: `(s_ij, x_ij, i, j)`, parallel_savings.py 43 and 71-79. -/
abbrev Saving := ℚ × ℚ × ℕ × ℕ

/-- Python's `<=` of the tuples of savings: lexicographic. See parallel_savings.py 45. -/
def savingLe (a b : Saving) : Bool :=
  decide (a.1 < b.1) || (decide (a.1 = b.1) &&
  (decide (a.2.1 < b.2.1) || (decide (a.2.1 = b.2.1) &&
  (decide (a.2.2.1 < b.2.2.1) || (decide (a.2.2.1 = b.2.2.1) && decide (a.2.2.2 ≤ b.2.2.2))))))

/-- `clarke_wright_savings_function(D)` for an `N×N` matrix, parallel_savings.py 35-46. The array
filled by position is written as a list in the order of the filling. -/
def clarke_wright_savings_function (N : ℕ) (D : ℕ → ℕ → ℚ) : List Saving :=
  pySort (fun a b => savingLe b a)
    ((pyRange 1 N).flatMap fun i => (pyRange (i + 1) N).map fun j =>
      (D i 0 + D 0 j - D i j, -D i j, i, j))

/-- The variable `routes`; `none` is a route that was merged to another. See parallel_savings.py 94. -/
abbrev Routes := List (Option (List ℕ))

/-- The variables of `parallel_savings_init`. `seen` does not exist in the code: it records the value
of `routes` after each statement that changes it, with the line number, that is everything an
interrupt can see. See parallel_savings.py 90-103. -/
structure PSState where
  routes : Routes
  route_demands : List ℚ
  route_costs : List ℚ
  endnode_to_route : List (Option ℕ)
  seen : List (ℕ × Routes)

/-- `routes[k]` used as a list: `None` is a `TypeError`. See parallel_savings.py 157-160. -/
def routeAt (routes : Routes) (k : ℕ) : Py (List ℕ) :=
  match idx routes k with
  | .error e => .error e
  | .ok none => .error .typeError
  | .ok (some r) => .ok r

/-- `if cond: l[i] = v`. See parallel_savings.py 162-166. -/
def setIf {α : Type} (cond : Bool) (l : List α) (i : ℕ) (v : α) : Py (List α) :=
  if cond then setIdx l i v else .ok l

/-- The merged demand, parallel_savings.py 133-134; only computed if `C`. -/
def psDemand (C : Option ℚ) (s : PSState) (l r : ℕ) : Py ℚ :=
  if truthy C then do
    let a ← idx s.route_demands l
    let b ← idx s.route_demands r
    pure (a + b)
  else pure 0

/-- The merged cost, parallel_savings.py 141-144; only computed if `L`. -/
def psCost (D : ℕ → ℕ → ℚ) (L : Option ℚ) (s : PSState) (l r i j : ℕ) : Py ℚ :=
  if truthy L then do
    let a ← idx s.route_costs l
    let b ← idx s.route_costs r
    pure (a - D 0 i + b - D 0 j + D i j)
  else pure 0

/-- The merge itself, parallel_savings.py 155-173. -/
def psJoin (i j l r : ℕ) (s : PSState) : Py PSState := do
  let a ← routeAt s.routes l
  let a0 ← idx a 0
  let a := if a0 = i then a.reverse else a
  let routes1 := s.routes.set l (some a)
  let b ← routeAt routes1 r
  let b1 ← idxNeg b 1
  let b := if b1 = j then b.reverse else b
  let routes2 := routes1.set r (some b)
  let al ← idxNeg a 1
  let en ← setIf (decide (1 < a.length)) s.endnode_to_route al none
  let b0 ← idx b 0
  let en ← setIf (decide (1 < b.length)) en b0 none
  let bl ← idxNeg b 1
  let en ← setIdx en bl (some l)
  let routes3 := routes2.set l (some (a ++ b))
  let routes4 := routes3.set r none
  pure { s with routes := routes4, endnode_to_route := en,
                seen := s.seen ++ [(158, routes1), (160, routes2), (172, routes3), (173, routes4)] }

/-- The body of the loop after the end nodes were found on the routes `l` and `r`,
parallel_savings.py 132-173. -/
def psTry (D : ℕ → ℕ → ℚ) (C L : Option ℚ) (i j l r : ℕ) (s : PSState) : Py PSState :=
  match psDemand C s l r with
  | .error e => .error e
  | .ok merged_demand =>
    if exceeds C C_EPS merged_demand then .ok s
    else
      match psCost D L s l r i j with
      | .error e => .error e
      | .ok merged_cost =>
        if exceeds L S_EPS merged_cost then .ok s
        else
          psJoin i j l r
            { s with
              route_demands :=
                if truthy C then s.route_demands.set l merged_demand else s.route_demands,
              route_costs := if truthy L then s.route_costs.set l merged_cost else s.route_costs }

/-- The body of the loop over the savings, parallel_savings.py 108-173; the flag tells if it was left
with `break`. -/
def psStep (D : ℕ → ℕ → ℚ) (C L : Option ℚ) (minimize_K : Bool) (sv : Saving) (s : PSState) :
    Py (PSState × Bool) :=
  let i := sv.2.2.1
  let j := sv.2.2.2
  if minimize_K = false ∧ D i 0 + D 0 j - D i j < 0 then .ok (s, true)
  else
    match idx s.endnode_to_route i, idx s.endnode_to_route j with
    | .error e, _ => .error e
    | _, .error e => .error e
    | .ok (some l), .ok (some r) =>
      if l = r then .ok (s, false)
      else
        match psTry D C L i j l r s with
        | .error e => .error e
        | .ok s' => .ok (s', false)
    | .ok _, .ok _ => .ok (s, false)

/-- The initial state, parallel_savings.py 90-103. -/
def psInit (N : ℕ) (D : ℕ → ℕ → ℚ) (d : ℕ → ℚ) (C L : Option ℚ) : PSState :=
  let routes := (pyRange 1 N).map fun i => some [i]
  { routes := routes
    route_demands := if truthy C then (pyRange 1 N).map d else List.replicate N 0
    route_costs := if truthy L then (pyRange 1 N).map fun i => D 0 i + D i 0 else []
    endnode_to_route := some 0 :: (pyRange 0 (N - 1)).map some
    seen := [(94, routes)] }

/-- `routes2sol(routes)` for routes some of which are `None`. `None` is skipped by the test `if r`
exactly as an empty list (util.py 116). -/
def routesSol (routes : Routes) : Option (List ℕ) := routes2sol (routes.map (·.getD []))

/-- `parallel_savings_init`, parallel_savings.py 48-183, for an `N×N` matrix. `savings` is the list
the savings callback returns. The answer is the returned solution and, for every value of `routes` an
interrupt can see, the line after which it is seen and the solution attached to the interrupt (lines
179-181). The demands are total, a missing demand list is not modelled. -/
def parallel_savings_init (N : ℕ) (D : ℕ → ℕ → ℚ) (d : ℕ → ℚ) (C L : Option ℚ) (minimize_K : Bool)
    (savings : List Saving) : Py (Option (List ℕ) × List (ℕ × Option (List ℕ))) :=
  match forBreak savings (psInit N D d C L) (psStep D C L minimize_K) with
  | .error e => .error e
  | .ok (s, _) => .ok (routesSol s.routes, s.seen.map fun x => (x.1, routesSol x.2))

end Verif
