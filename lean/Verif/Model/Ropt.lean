import Verif.Model.IntraRoute

/-! # Model of `verypy/tsp_solvers/tsp_solver_ropt.py` -/

namespace Verif

/-- The loops `while improved`, tsp_solver_ropt.py 39-46 and 51-58. `fuel` bounds the number of calls
of the operator; `none` tells that it was not enough. -/
def descend (step : List ℕ → Py (Option (List ℕ × ℚ))) : ℕ → List ℕ × ℚ → Py (Option (List ℕ × ℚ))
  | 0, _ => .ok none
  | fuel + 1, (route, c) =>
    match step route with
    | .error e => .error e
    | .ok none => .ok (some (route, c))
    | .ok (some (route', delta)) => descend step fuel (route', c + delta)

/-- The initial tour, tsp_solver_ropt.py 24-33. `shuffle` is the permutation that `random.shuffle`
happens to do, or `none` if `do_shuffle` is not set. -/
def roptStart (selected_idxs : List ℕ) (shuffle : Option (List ℕ → List ℕ)) : Py (List ℕ) := do
  let endp ← idx selected_idxs 0
  match shuffle with
  | some sh => pure ([endp] ++ sh (selected_idxs.drop 1) ++ [endp])
  | none => do
    let last ← idxNeg selected_idxs 1
    if last ≠ endp then pure (selected_idxs ++ [endp]) else pure selected_idxs

/-- One phase, tsp_solver_ropt.py 38-46 and 50-58: descend if the flag is set. -/
def roptPhase (flag : Bool) (step : List ℕ → Py (Option (List ℕ × ℚ))) (fuel : ℕ) :
    Option (List ℕ × ℚ) → Py (Option (List ℕ × ℚ))
  | none => .ok none
  | some s => if flag then descend step fuel s else .ok (some s)

/-- `solve_tsp_ropt`, tsp_solver_ropt.py 21-60. The strategy argument 1 is `LSOPT.FIRST_ACCEPT`. -/
def solve_tsp_ropt (fuel : ℕ) (D : ℕ → ℕ → ℚ) (selected_idxs : List ℕ)
    (shuffle : Option (List ℕ → List ℕ)) (do2opt do3opt : Bool) : Py (Option (List ℕ × ℚ)) := do
  let new_route ← roptStart selected_idxs shuffle
  let s ← roptPhase do2opt (fun r => do_2opt_move r D .FIRST_ACCEPT none) fuel
    (some (new_route, objf new_route D))
  roptPhase do3opt (fun r => do_3opt_move r D .FIRST_ACCEPT none) fuel s

/-- `solve_tsp_2opt`, tsp_solver_ropt.py 12-14. -/
def solve_tsp_2opt (fuel : ℕ) (D : ℕ → ℕ → ℚ) (selected_idxs : List ℕ) :=
  solve_tsp_ropt fuel D selected_idxs none true false

/-- `solve_tsp_3opt`, tsp_solver_ropt.py 16-18. -/
def solve_tsp_3opt (fuel : ℕ) (D : ℕ → ℕ → ℚ) (selected_idxs : List ℕ) :=
  solve_tsp_ropt fuel D selected_idxs none false true

end Verif
