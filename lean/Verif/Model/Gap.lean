import Verif.Model.Util
import Verif.Model.CvrpOps
import Verif.Model.Sweep
import Verif.Model.Sort
import Mathlib.Algebra.Order.Floor.Ring
import Mathlib.Data.Rat.Floor

/-! # Model of `verypy/classic_heuristics/gapvrp.py`

The solver of the integer programmes (Gurobi) is a parameter: a function of the number of the call and
of the programme, as in `Verif.Model.Petal`. Its answers are exact (the code reads the floating point values of
the variables as truth values). The seed points enter only by their distances to the nodes, so the function for
the seeds (`seed_f` with `calculate_D`, gapvrp.py 764-770) is a parameter that gives for a number of vehicles and a
trial the rows of distances, or raises. The floating point numbers are exact rationals. -/

namespace Verif

/-! ## The generalised assignment problem -/

/-- The programme of `_solve_gap`, gapvrp.py 119-170: for each vehicle the coefficients of the customers
`1..N-1`, the demands `d[1:]`, the limits, and the factor of the coefficients in the constraints on the route cost. -/
structure GapModel where
  costs : List (List ℚ)
  dem : List ℚ
  C : Option ℚ
  L : Option ℚ
  mult : ℚ
  deriving DecidableEq, Repr

/-- The sum of coefficients over the variables that are set (`LinExpr(coeffs, vars)`). See gapvrp.py 139 and 152. -/
def linExpr (coeffs : List ℚ) (row : List Bool) : ℚ :=
  ((coeffs.zip row).map fun e => if e.2 then e.1 else 0).sum

/-- The constraints that are never relaxed, gapvrp.py 135-141 and 157-160: the values of the variables are a row
for each vehicle. -/
structure GapModel.Hard (M : GapModel) (Y : List (List Bool)) : Prop where
  vehicles : Y.length = M.costs.length
  vars : ∀ row ∈ Y, row.length = M.dem.length
  c1 : truthy M.C = true → ∀ row ∈ Y, linExpr M.dem row ≤ M.C.getD 0
  c2 : ∀ j < M.dem.length, (Y.filter fun row => decide (row[j]? = some true)).length = 1

/-- All the constraints, gapvrp.py 131-160. -/
structure GapModel.Sat (M : GapModel) (Y : List (List Bool)) : Prop extends M.Hard Y where
  cl : truthy M.L = true → ∀ e ∈ M.costs.zip Y, linExpr (e.1.map (· * M.mult)) e.2 ≤ M.L.getD 0

/-- The objective, gapvrp.py 124-129 and 164. -/
def GapModel.objective (M : GapModel) (Y : List (List Bool)) : ℚ :=
  ((M.costs.zip Y).map fun e => linExpr e.1 e.2).sum

/-- How a run of the solver ends, gapvrp.py 182-211; `other` is any status that is not mentioned. -/
inductive GapStatus where
  | optimal (Y : List (List Bool))
  | infeasible
  | timeLimit
  | interrupted
  | other
  deriving DecidableEq, Repr

/-- The solver: the number of the call and the programme are given. See gapvrp.py 172-181. -/
abbrev GapSolver := ℕ → GapModel → GapStatus

/-- The rows of `D_s` for the vehicles, gapvrp.py 777, as they are used: `D_s[k]` for `k in range(K)`, where row 0
is the row of the depot and the row of a seed point comes one place later. -/
def gapRow (D : ℕ → ℕ → ℚ) (S : List (ℕ → ℚ)) (k : ℕ) : Py (ℕ → ℚ) := idx (D 0 :: S) k

/-- `insertion_cost` of a vehicle, gapvrp.py 124-126. -/
def gapCosts (N : ℕ) (D : ℕ → ℕ → ℚ) (row : ℕ → ℚ) : List ℚ :=
  (pyRange 1 N).map fun i => D 0 i + row i - row 0

/-- The coefficients of all vehicles, gapvrp.py 121-126. The key that is missing is an `IndexError` (without customers
there is no key; this case is not told apart). -/
def gapAllCosts (N : ℕ) (D : ℕ → ℕ → ℚ) (S : List (ℕ → ℚ)) : List ℕ → Py (List (List ℚ))
  | [] => .ok []
  | k :: ks =>
    match gapRow D S k with
    | .error e => .error e
    | .ok row =>
      match gapAllCosts N D S ks with
      | .error e => .error e
      | .ok rest => .ok (gapCosts N D row :: rest)

/-- `_decision_variables_to_assignments`, gapvrp.py 64-82. -/
def gapAssign (N : ℕ) (Y : List (List Bool)) : List (List ℕ) :=
  Y.map fun row => (((pyRange 1 N).zip row).filter fun e => e.2).map (·.1)

/-- The result of `_solve_gap`: assignments or `None`, or an exception. See gapvrp.py 182-211. -/
inductive GapAnswer where
  | ok (assignments : Option (List (List ℕ)))
  | interrupted
  | gurobiError
  deriving DecidableEq, Repr

/-- `_solve_gap`, gapvrp.py 84-211; `opt` and `rlx` are the two runs of the solver, the second after `feasRelax`. -/
def solve_gap (opt rlx : GapSolver) (call N : ℕ) (M : GapModel) : GapAnswer :=
  match opt call M with
  | .optimal Y => .ok (some (gapAssign N Y))
  | .timeLimit => .gurobiError
  | .interrupted => .interrupted
  | .infeasible =>
    if truthy M.L then
      match rlx call M with
      | .optimal Y => .ok (some (gapAssign N Y))
      | .timeLimit => .gurobiError
      | .interrupted => .interrupted
      | _ => .ok none
    else .ok none
  | .other => .ok none

/-! ## The routes of an assignment -/

/-- The variables of one trial, gapvrp.py 779-784 and 809; `served` without the depot. -/
structure GapTry where
  solution : List ℕ
  sol_f : ℚ
  sol_K : ℕ
  gapInf : Bool
  lInf : Bool
  served : List ℕ
  deriving DecidableEq, Repr

/-- The loop over the assignments, gapvrp.py 811-839. The list of demands `d` is not empty. -/
def gapRoutes (d : ℕ → ℚ) (C L : Option ℚ) (tsp : Router) : List (List ℕ) → GapTry → GapTry
  | [], t => t
  | u :: us, t =>
    if u = [] then gapRoutes d C L tsp us t
    else
      let r := tsp (0 :: u)
      let served := if truthy L then t.served ++ u else t.served
      if truthy L && exceeds C C_EPS (totald r.1 (some d)) then
        { t with served := served, gapInf := true }
      else
        let t := { t with served := served, solution := t.solution ++ r.1.tail, sol_f := t.sol_f + r.2,
                          sol_K := t.sol_K + 1 }
        if exceeds L S_EPS r.2 then { t with lInf := true } else gapRoutes d C L tsp us t

/-- One trial after the solver, gapvrp.py 779-784 and 796-854: the solution with its cost and the number of its routes
if `solved`. The test `not assignments` is also met by the empty list. -/
def gapTrial (N : ℕ) (d : ℕ → ℚ) (C L : Option ℚ) (tsp : Router) (assignments : Option (List (List ℕ))) :
    Option (List ℕ × ℚ × ℕ) :=
  match assignments with
  | none => none
  | some [] => none
  | some (u :: us) =>
    let t := gapRoutes d C L tsp (u :: us) ⟨[0], 0, 0, false, false, []⟩
    let missing := !t.gapInf && !t.lInf && truthy L && decide (1 + t.served.dedup.length < N)
    if !(t.gapInf || missing) && !t.lInf then some (t.solution, t.sol_f, t.sol_K) else none

/-! ## The main loop -/

/-- The arguments of `gap_init` as the loop uses them, with the solver. `late t` tells whether the user interrupts the
search after the result of the trial `t` is stored (an interrupt before that is an answer of the solver). `debug` is
Python's `__debug__`. See gapvrp.py 599-605. -/
structure GapArgs where
  N : ℕ
  D : ℕ → ℕ → ℚ
  d : ℕ → ℚ
  C : Option ℚ
  L : Option ℚ
  st : Option ℚ
  int_dists : Bool
  minimize_K : Bool
  find_optimal_seeds : Bool
  adaptive : Bool
  increase_K : Bool
  seeds : ℕ → ℕ → Py (List (ℕ → ℚ))
  tsp : Router
  opt : GapSolver
  rlx : GapSolver
  late : ℕ → Bool
  debug : Bool

/-- The variables of the main loop, gapvrp.py 740-751. `corrective` tells whether the variable `corrective_action` is bound; it
is only used in messages, but these raise without it. `calls` counts the trials, `log` lists the solutions
found; these two are not in the code. -/
structure GapSt where
  best_sol : Option (List ℕ)
  best_f : Option ℚ
  best_K : Option ℚ
  trial : ℕ
  incK : ℕ
  mult : ℚ
  tries : ℕ
  found : Bool
  corrective : Bool
  calls : ℕ
  log : List (List ℕ)

/-- `L and use_adaptive_L_constraint_weights`, gapvrp.py 748, 859 and 878. -/
def GapArgs.adapts (a : GapArgs) : Bool := truthy a.L && a.adaptive

/-- `L_MPLR_DEFAULT`, `L_ADAPTIVE_MPLR_INIT` and `L_ADAPTIVE_MPLR_INC`, gapvrp.py 58-60. -/
def L_MPLR_DEFAULT : ℚ := 1
@[inherit_doc L_MPLR_DEFAULT] def L_MPLR_INIT : ℚ := 17 / 20
@[inherit_doc L_MPLR_DEFAULT] def L_MPLR_INC : ℚ := 17 / 20

/-- The rows of distances from the seed points with half of the service time, gapvrp.py 770-776. -/
def gapSeedRows (st : Option ℚ) (int_dists : Bool) (S : List (ℕ → ℚ)) : List (ℕ → ℚ) :=
  if truthy st then
    let half := if int_dists then truncQ (st.getD 0 / 2) else st.getD 0 / 2
    S.map fun row j => if j = 0 then row j else row j + half
  else S

/-- The programme of a trial, gapvrp.py 764-777 and 794. -/
def gapProgramme (a : GapArgs) (K : ℕ) (s : GapSt) : Py GapModel :=
  match a.seeds K s.trial with
  | .error e => .error e
  | .ok S =>
    match gapAllCosts a.N a.D (gapSeedRows a.st a.int_dists S) (List.range K) with
    | .error e => .error e
    | .ok costs => .ok ⟨costs, (pyRange 1 a.N).map a.d, a.C, a.L, s.mult⟩

/-- What follows a `GurobiError`, gapvrp.py 856-876: the new state and `take_next_seed`; nothing if the error is
raised again. -/
def gapTimeout (a : GapArgs) (maxKinc K : ℕ) (s : GapSt) : Option (GapSt × Bool) :=
  if a.adapts && decide (s.tries < 3) then
    some ({ s with mult := s.mult + L_MPLR_INC, tries := s.tries + 1, corrective := true }, false)
  else if a.increase_K && decide (K + s.incK + 1 ≤ maxKinc) then
    let s := if a.adapts && decide (3 ≤ s.tries) then { s with mult := L_MPLR_INIT, tries := 0 } else s
    some ({ s with incK := s.incK + 1, corrective := true }, false)
  else if a.find_optimal_seeds then some (s, true)
  else none

/-- What follows a trial without an error, gapvrp.py 877-902. -/
def gapAdapt (a : GapArgs) (maxKinc K : ℕ) (solved : Bool) (s : GapSt) : GapSt × Bool :=
  if a.adapts then
    if solved || decide (3 ≤ s.tries) then
      let s := { s with mult := L_MPLR_INIT, tries := 0 }
      if !solved && (a.increase_K && decide (K + s.incK + 1 ≤ maxKinc)) then ({ s with incK := s.incK + 1, corrective := true }, false)
      else ({ s with corrective := true }, true)
    else ({ s with mult := s.mult + L_MPLR_INC, tries := s.tries + 1, corrective := true }, false)
  else
    if !solved && (a.increase_K && decide (K + s.incK + 1 ≤ maxKinc)) then ({ s with incK := s.incK + 1, corrective := true }, false)
    else (s, true)

/-- The best solution is stored, gapvrp.py 905-911. -/
def gapStore (a : GapArgs) (found : Option (List ℕ × ℚ × ℕ)) (s : GapSt) : GapSt :=
  match found with
  | none => s
  | some (sol, f, K) =>
    let s := { s with log := s.log ++ [sol] }
    if is_better_sol s.best_f s.best_K (some f) (some (K : ℚ)) a.minimize_K then
      { s with best_sol := some sol, best_f := some f, best_K := some (K : ℚ), found := true }
    else s

/-- How an iteration of the seed loop ends. See gapvrp.py 757-928. -/
inductive GapOut where
  | again (s : GapSt)
  | next (s : GapSt)
  | interrupted (s : GapSt)
  | gurobiError (s : GapSt)

/-- The end of an iteration of the seed loop, gapvrp.py 921-928. -/
def gapTurn (a : GapArgs) (take : Bool) (s : GapSt) : GapOut :=
  let s' := if take then { s with incK := 0, trial := s.trial + 1 } else s
  if take && !a.find_optimal_seeds then .next s'
  else if s'.trial = a.N then .next { s' with incK := 0 }
  else .again s'

/-- The message for a trial without a solution, gapvrp.py 912-919: it raises if `corrective_action` is not bound. -/
def gapMessage (a : GapArgs) (solved : Bool) (s : GapSt) : Bool := !solved && (a.debug && !s.corrective)

/-- One iteration of the seed loop, gapvrp.py 758-928, with the number `K` of vehicles of the outer loop.
That the variable `corrective_action` is set when there are no assignments is line 799. -/
def gapIter (a : GapArgs) (maxKinc K : ℕ) (s : GapSt) : Py GapOut :=
  match gapProgramme a (K + s.incK) s with
  | .error e => .error e
  | .ok M =>
    let c := s.calls
    let s := { s with calls := c + 1 }
    match solve_gap a.opt a.rlx c a.N M with
    | .interrupted => .ok (.interrupted s)
    | .gurobiError =>
      match gapTimeout a maxKinc K s with
      | none => .ok (.gurobiError s)
      | some (s, take) =>
        if gapMessage a false s then .error .nameError
        else if a.late c then .ok (.interrupted s)
        else .ok (gapTurn a take s)
    | .ok assignments =>
      let found := gapTrial a.N a.d a.C a.L a.tsp assignments
      let p := gapAdapt a maxKinc K found.isSome { s with corrective := s.corrective || (assignments.getD []).isEmpty }
      let s := gapStore a found p.1
      if gapMessage a found.isSome s then .error .nameError
      else if a.late c then .ok (.interrupted s)
      else .ok (gapTurn a p.2 s)

/-- The seed loop, gapvrp.py 757-928. -/
def gapSeedLoop (a : GapArgs) (maxKinc K : ℕ) : ℕ → GapSt → Py (Option GapOut)
  | 0, _ => .ok none
  | fuel + 1, s =>
    match gapIter a maxKinc K s with
    | .error e => .error e
    | .ok (.again s) => gapSeedLoop a maxKinc K fuel s
    | .ok o => .ok (some o)

/-- The result of `gap_init`: a return value, or a `KeyboardInterrupt` with the best solution, or a
`GurobiError`. The list of all the solutions found is added. See gapvrp.py 941-945. -/
inductive GapResult where
  | ret (best : Option (List ℕ)) (log : List (List ℕ))
  | interrupted (best : Option (List ℕ)) (log : List (List ℕ))
  | gurobiError (log : List (List ℕ))
  deriving DecidableEq, Repr

/-- Whether the outer loop is left, gapvrp.py 930-941. -/
def gapStop (a : GapArgs) (s : GapSt) : Bool :=
  if a.minimize_K then s.best_sol.isSome else s.best_sol.isSome && !s.found

/-- The loop over the number of vehicles, gapvrp.py 753-945. (A solution that is found is never the empty list.) -/
def gapKLoop (a : GapArgs) (maxKinc fuel : ℕ) : List ℕ → GapSt → Py (Option GapResult)
  | [], s => .ok (some (.ret s.best_sol s.log))
  | K :: Ks, s =>
    match gapSeedLoop a maxKinc K fuel { s with found := false, trial := 0 } with
    | .error e => .error e
    | .ok none => .ok none
    | .ok (some (.interrupted s)) => .ok (some (.interrupted s.best_sol s.log))
    | .ok (some (.gurobiError s)) => .ok (some (.gurobiError s.log))
    | .ok (some (.again _)) => .ok none
    | .ok (some (.next s)) =>
      if gapStop a s then .ok (some (.ret s.best_sol s.log)) else gapKLoop a maxKinc fuel Ks s

/-- The loop for the least number of vehicles if only the route cost is limited, gapvrp.py 724-731; `tsp_f` is the
cost of a tour of the customers and `edges` are the sorted distances from the depot. -/
def gapLeastL (tsp_f : ℚ) (edges : List ℚ) (l : ℚ) : ℕ → ℕ → Option ℕ
  | 0, _ => none
  | fuel + 1, K =>
    if tsp_f + (edges.take (K * 2)).sum ≤ K * l then some K else gapLeastL tsp_f edges l fuel (K + 1)

/-- `startK` for the capacity, gapvrp.py 718-720. (`ceil` of a number that is not negative.) -/
def gapLeastC (N : ℕ) (d : ℕ → ℚ) (c : ℚ) : ℕ := ⌈((List.range N).map d).sum / c⌉₊

/-- `startK` and `maxK`, gapvrp.py 714-734; nothing if the fuel of the loop is spent. (Negative limits, with which
`startK` is negative, are not modelled.) -/
def gapRange (fuel : ℕ) (a : GapArgs) (K : Option ℕ) : Py (Option (ℕ × ℕ)) :=
  if 0 < K.getD 0 then .ok (some (K.getD 0, K.getD 0))
  else if truthy a.C then .ok (some (gapLeastC a.N a.d (a.C.getD 0), a.N - 1))
  else if truthy a.L then
    let tsp_f := (a.tsp (pyRange 1 a.N)).2
    let edges := pySort (fun x y => decide (x ≤ y)) ((pyRange 1 a.N).map fun i => a.D 0 i)
    match gapLeastL tsp_f edges (a.L.getD 0) fuel ⌈tsp_f / a.L.getD 0⌉₊ with
    | none => .ok none
    | some k => .ok (some (k, a.N - 1))
  else .error .valueError

/-- `maxKinc`, gapvrp.py 745. -/
def gapMaxInc (startK : ℕ) : ℕ := max (startK + 1) (startK * 11 / 10)

/-- `gap_init`, gapvrp.py 599-945. `large_demands` tells whether this method for the seeds is asked for, `points` whether
there are coordinates; an unknown method is a `seeds` that raises a `NameError`. -/
def gap_init (fuel : ℕ) (a : GapArgs) (K : Option ℕ) (large_demands points : Bool) : Py (Option GapResult) :=
  if large_demands && !truthy a.C then .error .valueError
  else if !points then .error .valueError
  else
    match gapRange fuel a K with
    | .error e => .error e
    | .ok none => .ok none
    | .ok (some (startK, maxK)) =>
      gapKLoop a (gapMaxInc startK) fuel (pyRange startK (maxK + 1))
        ⟨none, none, none, 0, 0, if a.adapts then L_MPLR_INIT else L_MPLR_DEFAULT, 0, false, false, 0, []⟩

end Verif
