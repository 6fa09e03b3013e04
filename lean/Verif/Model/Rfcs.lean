import Verif.Model.Util
import Verif.Model.Sweep
import Mathlib.Algebra.Order.Monoid.WithTop
import Mathlib.Algebra.Order.Monoid.Unbundled.WithTop

/-! # Model of `verypy/classic_heuristics/rfcs.py`

Infinity (`np.inf`) is the top of `WithTop ℚ`. The two-dimensional arrays are functions. The handling of
interrupts is the subject of `RfcsInterrupt.lean`. -/

namespace Verif

/-- `sequence_D` and `next_split`, rfcs.py 62-63. -/
structure RfTab where
  dist : ℕ → ℕ → WithTop ℚ
  next : ℕ → ℕ → ℕ

/-- `t[i,j] = x` on both of the tables. See rfcs.py 98-99. -/
def RfTab.put (t : RfTab) (i j : ℕ) (x : WithTop ℚ) (n : ℕ) : RfTab :=
  { dist := fun a b => if a = i ∧ b = j then x else t.dist a b
    next := fun a b => if a = i ∧ b = j then n else t.next a b }

/-- The length `gtl` of the tour without the repeated start, rfcs.py 57-59. -/
def rfLen (tour : List ℕ) : ℕ := if tour.head? = tour.getLast? then tour.length - 1 else tour.length

/-- `route_nodes[-1] = v` followed by the call of the TSP routine, rfcs.py 87-90 and 147-149. -/
def rfGrow (popt : Router) (route : List ℕ) (v : ℕ) : Py (List ℕ × ℚ) :=
  if route = [] then .error .indexError else .ok (popt (route.dropLast ++ [v]))

/-- The state of the inner loop: `cum_demand`, `route_nodes` and the tables. See rfcs.py 70-78. -/
abbrev RfState := ℚ × List ℕ × RfTab

/-- The body of the inner loop for the position `v_idx`, rfcs.py 80-99. -/
def rfCell (d : ℕ → ℚ) (C L : Option ℚ) (const : ℚ) (popt : Router) (tour : List ℕ) (u v_idx : ℕ)
    (s : RfState) : Py (RfState × Bool) :=
  match idx tour v_idx with
  | .error e => .error e
  | .ok v =>
    if exceeds C C_EPS (s.1 + d v) then .ok (s, true)
    else
      match rfGrow popt s.2.1 v with
      | .error e => .error e
      | .ok (route, cost) =>
        if exceeds L S_EPS cost then .ok ((s.1, route, s.2.2), true)
        else
          .ok ((if truthy C then s.1 + d v else s.1, route,
            s.2.2.put u v_idx ((cost + const : ℚ) : WithTop ℚ) v_idx), false)

/-- The values `v_idx` takes in the inner loop, rfcs.py 72-74 and 101-106, for two or more customers: the
positions after `u` and then, from the start, the ones before it. -/
def rfRing (u gtl : ℕ) : List ℕ := pyRange (u + 1) gtl ++ pyRange 0 u

/-- The row of the tables for `u`, rfcs.py 70-106. -/
def rfRow (d : ℕ → ℚ) (C L : Option ℚ) (const : ℚ) (popt : Router) (tour : List ℕ) (gtl : ℕ) (u : ℕ)
    (t : RfTab) : Py RfTab :=
  match forBreak (rfRing u gtl) ((0, [0, 0], t) : RfState) (rfCell d C L const popt tour u) with
  | .error e => .error e
  | .ok (s, _) => .ok s.2.2

/-- All the rows, rfcs.py 68-111. -/
def rfRows (d : ℕ → ℚ) (C L : Option ℚ) (const : ℚ) (popt : Router) (tour : List ℕ) (gtl : ℕ) :
    List ℕ → RfTab → Py RfTab
  | [], t => .ok t
  | u :: us, t =>
    match rfRow d C L const popt tour gtl u t with
    | .error e => .error e
    | .ok t => rfRows d C L const popt tour gtl us t

/-- The body of the three loops, rfcs.py 122-124. -/
def fwStep (i j : ℕ) (t : RfTab) (k : ℕ) : RfTab :=
  if t.dist i k + t.dist k j < t.dist i j then t.put i j (t.dist i k + t.dist k j) (t.next i k) else t

/-- The three loops, rfcs.py 119-124; `k` is the innermost one. -/
def fw (N : ℕ) (t : RfTab) : RfTab :=
  (pyRange 0 N).foldl (fun t i => (pyRange 0 N).foldl (fun t j => (pyRange 0 N).foldl (fwStep i j) t) t) t

/-- `np.argmin(sequence_D.diagonal())`, rfcs.py 128. -/
def rfArgmin (N : ℕ) (f : ℕ → WithTop ℚ) : ℕ :=
  (pyRange 0 N).foldl (fun b i => if f i < f b then i else b) 0

/-- The loop that builds a route, rfcs.py 143-152. The answer `none` tells that the fuel did not
suffice. -/
def rfRoute (popt : Router) (tour : List ℕ) (gtl v : ℕ) : ℕ → ℕ → List ℕ → Py (Option (List ℕ))
  | 0, _, _ => .ok none
  | fuel + 1, u, route =>
    if route.length = 2 ∨ u ≠ v then
      let u := if u + 1 = gtl then 0 else u + 1
      match idx tour u with
      | .error e => .error e
      | .ok c =>
        match rfGrow popt route c with
        | .error e => .error e
        | .ok (route, _) => rfRoute popt tour gtl v fuel u route
    else .ok (some route)

/-- The loop over the routes, rfcs.py 129-166. -/
def rfWalk (popt ropt : Router) (tour : List ℕ) (gtl start : ℕ) (next : ℕ → ℕ → ℕ) :
    ℕ → ℕ → List ℕ → Py (Option (List ℕ))
  | 0, _, _ => .ok none
  | fuel + 1, u, sol =>
    let v := next u start
    match rfRoute popt tour gtl v (gtl + 1) u [0, 0] with
    | .error e => .error e
    | .ok none => .ok none
    | .ok (some route) =>
      let sol := sol ++ (ropt route).1.tail
      if v = start then .ok (some sol) else rfWalk popt ropt tour gtl start next fuel v sol

/-- `_partition_to_routes_with_cost_matrix`, rfcs.py 48-176, for an `N×N` matrix, without interrupts. -/
def rf_partition (fuel N : ℕ) (d : ℕ → ℚ) (C L : Option ℚ) (tour : List ℕ) (const : ℚ)
    (popt ropt : Router) : Py (Option (List ℕ)) :=
  let gtl := rfLen tour
  match rfRows d C L const popt tour gtl (pyRange 0 gtl) ⟨fun _ _ => ⊤, fun _ _ => 0⟩ with
  | .error e => .error e
  | .ok t =>
    let t := fw N t
    let start := rfArgmin N fun i => t.dist i i
    rfWalk popt ropt tour gtl start t.next fuel start [0]

/-- `route_first_cluster_second_init`, rfcs.py 178-236. The routines `gen` (for the giant tour), `popt`
and `ropt` are `tsp_gen_algo`, `partition_tsp_opt_algo` and `route_tsp_opt_algo` with the matrix given. -/
def route_first_cluster_second_init (fuel N : ℕ) (d : ℕ → ℚ) (C L : Option ℚ) (minimize_K : Bool)
    (gen popt ropt : Router) : Py (Option (List ℕ)) :=
  if N ≤ 2 then .ok (some (pyRange 0 N ++ [0]))
  else
    let g := gen (pyRange 1 N)
    rf_partition fuel N d C L g.1 (if minimize_K then g.2 else 0) popt ropt

end Verif
