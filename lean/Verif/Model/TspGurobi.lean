import Verif.Model.Util

/-! # The exact routine for the travelling salesman problem (tsp_solvers/tsp_solver_gurobi.py)

The solver is a parameter: a function of the number of nodes and the costs of the edges. Its variables are Boolean (binary variables
compared with 0.5), and `X i j` and `X j i` are the same variable, which the contract of the solver says. -/

namespace Verif

/-- Values of the variables for the edges. See tsp_solver_gurobi.py 84-90. -/
abbrev EdgeVars := ℕ → ℕ → Bool

/-- The nodes joined to `x`, in the order of their numbers: `selected[x]` in tsp_solver_gurobi.py 40-42, for the edges in the order
of lines 23 and 117. -/
def edgeNbrs (n : ℕ) (X : EdgeVars) (x : ℕ) : List ℕ := (List.range n).filter (X x)

/-- The walk along the edges to nodes not visited yet, tsp_solver_gurobi.py 45-52: the nodes visited and the cycle. The list of flags
is the list of the nodes with a flag here. The bound on the steps is `fuel`. -/
def edgeWalk (n : ℕ) (X : EdgeVars) : ℕ → List ℕ → ℕ → List ℕ → Option (List ℕ × List ℕ)
  | 0, _, _, _ => none
  | fuel + 1, visited, current, cycle =>
    match (edgeNbrs n X current).filter (fun x => decide (x ∉ current :: visited)) with
    | [] => some (current :: visited, cycle)
    | x :: _ => edgeWalk n X fuel (current :: visited) x (cycle ++ [x])

/-- The loop over the cycles, tsp_solver_gurobi.py 43-56. `visited.index(False)` raises if there is no such node. -/
def edgeCycles (n : ℕ) (X : EdgeVars) : ℕ → List ℕ → List (List ℕ) → Py (Option (List (List ℕ)))
  | 0, _, _ => .ok none
  | fuel + 1, visited, cycles =>
    match (List.range n).find? (fun x => decide (x ∉ visited)) with
    | none => .error .valueError
    | some c =>
      match edgeWalk n X (n + 1) visited c [c] with
      | none => .ok none
      | some (visited, cycle) =>
        if ((cycles ++ [cycle]).map List.length).sum = n then .ok (some (cycles ++ [cycle]))
        else edgeCycles n X fuel visited (cycles ++ [cycle])

/-- `cycles[costs.index(min(costs))]`: the first of the shortest, tsp_solver_gurobi.py 57. -/
def shortestCycle : List (List ℕ) → List ℕ
  | [] => []
  | c :: cs => cs.foldl (fun m x => if x.length < m.length then x else m) c

/-- `_subtour`, tsp_solver_gurobi.py 35-57. -/
def subtour (n : ℕ) (X : EdgeVars) : Py (Option (List ℕ)) :=
  match edgeCycles n X (n + 1) [] [] with
  | .error e => .error e
  | .ok none => .ok none
  | .ok (some cycles) => .ok (some (shortestCycle cycles))

/-- The number of the edges chosen between the nodes of a tour, tsp_solver_gurobi.py 29-31. -/
def cutSum (X : EdgeVars) : List ℕ → ℕ
  | [] => 0
  | a :: l => (l.filter (X a)).length + cutSum X l

/-- The constraint that the callback `_subtourelim` adds at a candidate `Z` of the solver, and whether `X` keeps it; no constraint if the
shortest cycle has all the nodes. See tsp_solver_gurobi.py 17-32. -/
def KeepsCut (n : ℕ) (Z X : EdgeVars) : Prop :=
  ∀ t, subtour n Z = .ok (some t) → t.length < n → cutSum X t ≤ t.length - 1

/-- The constraints of the programme: each node on two edges, no loops; `edgevars[j,i]` is `edgevars[i,j]`. See tsp_solver_gurobi.py
84-96. -/
structure TwoEach (n : ℕ) (X : EdgeVars) : Prop where
  symm : ∀ i < n, ∀ j < n, X i j = X j i
  loops : ∀ i < n, X i i = false
  two : ∀ i < n, (edgeNbrs n X i).length = 2

/-- The objective: `D[from_node, to_node]` for `j ≤ i`, tsp_solver_gurobi.py 84-90. -/
def edgeObj (n : ℕ) (w : ℕ → ℕ → ℚ) (X : EdgeVars) : ℚ :=
  ((List.range n).map fun i => ((List.range (i + 1)).map fun j => if X i j then w i j else 0).sum).sum

/-- What the solver answers: values of the variables, or that it ran out of time or was interrupted. See tsp_solver_gurobi.py 105-116. -/
inductive EdgeAnswer where
  | values (X : EdgeVars)
  | timeout
  | interrupted

/-- What the routine ends with: a tour and its cost, `None` with the cost 0, an error of the solver, an interrupt, the failed assertion,
or an exception of the search for cycles. `stuck` is out of fuel. See tsp_solver_gurobi.py 59-124. -/
inductive GurobiEnd where
  | tour (sol : List ℕ) (f : ℚ)
  | nothing
  | timeout
  | interrupted
  | assertion
  | raised (e : PyErr)
  | stuck
  deriving DecidableEq, Repr

/-- `selected_idxs[i]` for a number in the range. The reads with other numbers do not occur. See tsp_solver_gurobi.py 86-87, 122. -/
def picked (idxs : List ℕ) (i : ℕ) : ℕ := idxs.getD i 0

/-- `solve_tsp_gurobi`, tsp_solver_gurobi.py 59-124. The empty list raises an `IndexError` at line 64. -/
def solve_tsp_gurobi (solver : ℕ → (ℕ → ℕ → ℚ) → EdgeAnswer) (D : ℕ → ℕ → ℚ) (idxs : List ℕ) : GurobiEnd :=
  match idxs with
  | [] => .raised .indexError
  | a :: _ =>
    let closed := idxs.getLast? = some a
    let n := if closed then idxs.length - 1 else idxs.length
    if n ≤ 3 then
      if 1 < n then
        let sol := if closed then idxs else idxs ++ [a]
        .tour sol (objf sol D)
      else .nothing
    else
      let w := fun i j => D (picked idxs i) (picked idxs j)
      match solver n w with
      | .timeout => .timeout
      | .interrupted => .interrupted
      | .values X =>
        match subtour n X with
        | .error e => .raised e
        | .ok none => .stuck
        | .ok (some cycle) =>
          if cycle.length = n then .tour (cycle.map (picked idxs) ++ [a]) (edgeObj n w X)
          else .assertion

end Verif
