import Verif.Model.Py

/-! # Model of `verypy/util.py` -/

namespace Verif

/-- `objf(sol, D)`, util.py 44-54. The index loop `D[sol[i-1],sol[i]] for i in range(1,len(sol))`
is written as a zip of the list with its tail (all the indices are in range). -/
def objf (sol : List ℕ) (D : ℕ → ℕ → ℚ) : ℚ := (List.zipWith D sol sol.tail).sum

/-- `totald(sol, d)`, util.py 56-60. `d = none` models a falsy demand list. -/
def totald (sol : List ℕ) (d : Option (ℕ → ℚ)) : ℚ :=
  match d with
  | none => 0
  | some d => (sol.map d).sum

/-- `is_better_sol`, util.py 67-79. Costs are numbers or `None`. -/
def is_better_sol (best_f best_K sol_f sol_K : Option ℚ) (minimize_K : Bool) : Bool :=
  match sol_f, sol_K with
  | none, _ => false
  | _, none => false
  | some sf, some sK =>
    match best_f, best_K with
    | none, _ => true
    | _, none => true
    | some bf, some bK =>
      if minimize_K then decide (sK < bK) || (decide (sK = bK) && decide (sf < bf))
      else decide (sf < bf)

/-- `without_empty_routes(sol)`, util.py 81-84: the first element of each `groupby` run. -/
def without_empty_routes (sol : List ℕ) : List ℕ := (pyGroupby id sol).map (·.1)

/-- `sol2routes(sol)`, util.py 86-91. -/
def sol2routes (sol : List ℕ) : List (List ℕ) :=
  if sol.length ≤ 2 then []
  else ((pyGroupby (fun z => decide (z = 0)) sol).filter (fun xr => !xr.1)).map
    (fun xr => [0] ++ xr.2 ++ [0])

/-- One step of the loop of `routes2sol`, util.py 115-122. `sol[-1]` is safe as `sol` is never
empty there. -/
def routes2sol_step (sol r : List ℕ) : List ℕ :=
  match r with
  | [] => sol
  | r0 :: rt =>
    let sol := if r0 = 0 then sol ++ rt else sol ++ (r0 :: rt)
    if sol.getLast? ≠ some 0 then sol ++ [0] else sol

/-- `routes2sol(routes)`, util.py 106-123. `none` models the returned `None`. -/
def routes2sol (routes : List (List ℕ)) : Option (List ℕ) :=
  if routes = [] then none else some (routes.foldl routes2sol_step [0])

end Verif
