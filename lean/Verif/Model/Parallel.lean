import Verif.Model.NearestNeighbor
import Verif.Model.CheapestInsertion
import Verif.Model.Util

/-! # Model of the construction heuristics as the command line calls them: the wrappers of
`verypy/classic_heuristics/nearest_neighbor.py` and `verypy/classic_heuristics/cheapest_insertion.py` -/

namespace Verif

/-- The parameter `emerging_route_count`: "auto" or a number. See nearest_neighbor.py 347, cheapest_insertion.py 429. -/
inductive EmergingCount
  | auto
  | num (k : ℤ)
  deriving DecidableEq, Repr

/-- `call_init` of `get_snn_algorithm`, nearest_neighbor.py 338-343. -/
def call_sn (D : ℕ → ℕ → ℚ) (d : ℕ → ℚ) (C L : Option ℚ) (N : ℕ) (minimize_K : Bool) (fuel : ℕ) :
    Py (Option (Option (List ℕ))) :=
  if minimize_K then .error .notImplemented
  else nearest_neighbor_init D d C L N 1 .farthest false [] fuel

/-- The comparison with the best solution, nearest_neighbor.py 372-379. -/
def pnUpdate (D : ℕ → ℕ → ℚ) (minimize_K : Bool) (sol : List ℕ) (best : List ℕ × ℚ × ℤ) : List ℕ × ℚ × ℤ :=
  if is_better_sol (some best.2.1) (some (best.2.2 : ℚ)) (some (objf sol D)) (some (((sol.count 0 : ℤ) - 1 : ℤ) : ℚ))
      minimize_K
  then (sol, objf sol D, (sol.count 0 : ℤ) - 1)
  else best

/-- The loop over the numbers of routes, nearest_neighbor.py 370-379. `groupby(None)` is a `TypeError`. -/
def pnLoop (D : ℕ → ℕ → ℚ) (d : ℕ → ℚ) (C L : Option ℚ) (N : ℕ) (minimize_K : Bool) (fuel : ℕ) :
    List ℕ → List ℕ × ℚ × ℤ → Py (Option (List ℕ))
  | [], best => .ok (some best.1)
  | k :: ks, best =>
    match nearest_neighbor_init D d C L N k .farthest false [] fuel with
    | .error e => .error e
    | .ok none => .ok none
    | .ok (some none) => .error .typeError
    | .ok (some (some sol)) =>
      pnLoop D d C L N minimize_K fuel ks (pnUpdate D minimize_K (without_empty_routes sol) best)

/-- `call_init` of `get_pnn_algorithm` with "auto", nearest_neighbor.py 351-381. `None` has no `count`. -/
def pnAuto (D : ℕ → ℕ → ℚ) (d : ℕ → ℚ) (C L : Option ℚ) (N : ℕ) (single minimize_K : Bool) (fuel : ℕ) :
    Py (Option (Option (List ℕ))) :=
  if minimize_K then .error .notImplemented
  else
    match nearest_neighbor_init D d C L N 1 .farthest false [] fuel with
    | .error e => .error e
    | .ok none => .ok none
    | .ok (some sol_snn) =>
      if single then .ok (some sol_snn)
      else
        match sol_snn with
        | none => .error .attributeError
        | some sol_snn =>
          match pnLoop D d C L N minimize_K fuel (pyRange 2 (sol_snn.count 0 - 1 + 1))
              (sol_snn, objf sol_snn D, (sol_snn.count 0 : ℤ) - 1) with
          | .error e => .error e
          | .ok none => .ok none
          | .ok (some best_sol) => .ok (some (some best_sol))

/-- `get_pnn_algorithm` and its `call_init`, nearest_neighbor.py 347-390. -/
def call_pn (count : EmergingCount) (D : ℕ → ℕ → ℚ) (d : ℕ → ℚ) (C L : Option ℚ) (N : ℕ) (single minimize_K : Bool)
    (fuel : ℕ) : Py (Option (Option (List ℕ))) :=
  match count with
  | .auto => pnAuto D d C L N single minimize_K fuel
  | .num k =>
    if k > 1 then
      if minimize_K then .error .notImplemented
      else nearest_neighbor_init D d C L N k.toNat .farthest false [] fuel
    else .error .valueError

/-- `call_init` of `get_si_algorithm`, cheapest_insertion.py 423-425, with the defaults of
`cheapest_insertion_init` for the seeds and the strain. -/
def call_si (D : ℕ → ℕ → ℚ) (d : ℕ → ℚ) (C L : Option ℚ) (N : ℕ) (minimize_K : Bool) (pick : List Ins → ℕ) (fuel : ℕ) :
    Py (Option (List ℕ)) :=
  cheapest_insertion_init D d C L N minimize_K 1 .farthest (parametrized_insertion_criteria D 1 0) pick fuel

/-- `get_pi_algorithm` and its `call_init`, cheapest_insertion.py 429-451. -/
def call_pi (count : EmergingCount) (D : ℕ → ℕ → ℚ) (d : ℕ → ℚ) (C L : Option ℚ) (N : ℕ) (minimize_K : Bool)
    (pick : List Ins → ℕ) (fuel : ℕ) : Py (Option (List ℕ)) :=
  match count with
  | .auto =>
    match cheapest_insertion_init D d C L N minimize_K 1 .farthest (parametrized_insertion_criteria D 1 0) pick fuel with
    | .error e => .error e
    | .ok none => .ok none
    | .ok (some sol_ci) =>
      cheapest_insertion_init D d C L N minimize_K (sol_ci.count 0 - 1) .farthest
        (parametrized_insertion_criteria D 1 0) pick fuel
  | .num k =>
    if k > 1 then
      cheapest_insertion_init D d C L N minimize_K k.toNat .farthest (parametrized_insertion_criteria D 1 0) pick fuel
    else .error .valueError

end Verif
