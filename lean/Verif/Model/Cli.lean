import Verif.Model.Util
import Verif.Model.CvrpOps
import Verif.Model.LocalSearch

/-! # Model of the drivers: `verypy/shared_cli.py` and `verypy/VeRyPy.py`

The algorithm is a parameter: how its calls end. The instance is given as it has been read (the readers are in
`Verif.Model.Tsplib`). Time and the wording of the output are not modelled: a report is a record of the values that
are printed. -/

namespace Verif

/-- How a call of an algorithm ends: it returns a solution or `None`, it is interrupted with or without a solution
in the arguments of the `KeyboardInterrupt`, or it raises another exception.
See shared_cli.py 119-128 and VeRyPy.py 181-198. -/
inductive RunOut where
  | ret (sol : Option (List ℕ))
  | interrupted (sol : Option (List ℕ))
  | failed (e : PyErr)
  deriving DecidableEq, Repr

/-- The values `print_solution_statistics` prints, shared_cli.py 42-63: the three verdicts (together or apart), the number of
routes, and the cost and the length if they are printed. The table of the routes is in `Model/RouteStats.lean`. -/
structure Stats where
  sol : List ℕ
  served : Bool
  capacity_ok : Bool
  length_ok : Bool
  K : ℕ
  cost : Option ℚ
  length : Option ℚ
  deriving DecidableEq, Repr

/-- `print_solution_statistics` for given matrices, shared_cli.py 42-63; `talk` tells whether `verbosity > 0`. -/
def print_solution_statistics (N : ℕ) (sol : List ℕ) (D Dc : ℕ → ℕ → ℚ) (d : ℕ → ℚ) (C L : Option ℚ) (talk : Bool) :
    Py Stats :=
  match validate_solution_feasibility N sol Dc (some d) C L with
  | .error e => .error e
  | .ok v =>
    let sol_f := objf sol D
    let sol_c := objf sol Dc
    .ok ⟨sol, v.1, v.2.1, v.2.2, sol.count 0 - 1,
      if (talk && decide (sol_f ≠ sol_c)) || decide (sol_c = 0) then some sol_c else none,
      if sol_c ≠ 0 then some sol_f else none⟩

/-! ## Several runs of an algorithm, the best is returned -/

/-- The instance as it has been read, with the service time in the distances `Dc`. See shared_cli.py 93-97. -/
structure CliInst where
  N : ℕ
  D : ℕ → ℕ → ℚ
  Dc : ℕ → ℕ → ℚ
  d : ℕ → ℚ
  C : Option ℚ
  L : Option ℚ

/-- `is_better_sol(best_f, best_K, sol_f, sol_K, minimize_K)` with `best_f = float('inf')` and `best_K = len(D)` as
long as there is no best solution, shared_cli.py 111-113 and 135. -/
def bestOfBetter (N : ℕ) (minimize_K : Bool) (best : Option (List ℕ × ℚ × ℕ)) (f : ℚ) (K : ℕ) : Bool :=
  match best with
  | none => if minimize_K then decide (K < N) || decide (K = N) else true
  | some (_, bf, bK) => is_better_sol (some bf) (some (bK : ℚ)) (some f) (some (K : ℚ)) minimize_K

/-- One solution of a run is compared with the best, shared_cli.py 131-141. The line about the quality needs a best
solution. -/
def bestOfStep (i : CliInst) (minimize_K : Bool) (n : ℕ) (verbosity : ℤ) (sol : Option (List ℕ))
    (best : Option (List ℕ × ℚ × ℕ)) : Py (Option (List ℕ × ℚ × ℕ)) :=
  match sol with
  | none => .ok best
  | some [] => .ok best
  | some (x :: xs) =>
    match normalize_solution (x :: xs) with
    | .error e => .error e
    | .ok sol =>
      let f := objf sol i.Dc
      let K := sol.count 0 - 1
      let best := if bestOfBetter i.N minimize_K best f K then some (sol, f, K) else best
      if 1 < n && decide (1 ≤ verbosity) && best.isNone then .error .typeError else .ok best

/-- The repeated runs, shared_cli.py 115-146: the best solution and whether the user has interrupted a run. `runs` tells
how the calls of the algorithm end. -/
def bestOfLoop (i : CliInst) (minimize_K : Bool) (n : ℕ) (verbosity : ℤ) (runs : ℕ → RunOut) :
    List ℕ → Option (List ℕ × ℚ × ℕ) → Py (Option (List ℕ × ℚ × ℕ) × Bool)
  | [], best => .ok (best, false)
  | k :: ks, best =>
    match runs k with
    | .failed e => .error e
    | .interrupted sol =>
      match bestOfStep i minimize_K n verbosity sol best with
      | .error e => .error e
      | .ok best => .ok (best, true)
    | .ret sol =>
      match bestOfStep i minimize_K n verbosity sol best with
      | .error e => .error e
      | .ok best => bestOfLoop i minimize_K n verbosity runs ks best

/-- The result of `read_and_solve_a_problem`: the solution with its length and its cost, or a `KeyboardInterrupt` without
arguments; with the statistics that have been printed. See shared_cli.py 152-155. -/
inductive BestOf where
  | ret (sol : List ℕ) (f c : ℚ) (shown : Option Stats)
  | interrupted (shown : Option Stats)
  deriving DecidableEq, Repr

/-- The statistics of the best solution are printed unless the program is quiet, shared_cli.py 148-150. (The solution is
normalized once more.) -/
def cliShown (i : CliInst) (verbosity : ℤ) : Option (List ℕ × ℚ × ℕ) → Py (Option Stats)
  | none => .ok none
  | some (sol, _, _) =>
    if 0 ≤ verbosity then
      match normalize_solution sol with
      | .error e => .error e
      | .ok m =>
        match print_solution_statistics i.N m i.D i.Dc i.d i.C i.L (decide (0 < verbosity)) with
        | .error e => .error e
        | .ok s => .ok (some s)
    else .ok none

/-- `read_and_solve_a_problem` without the reading, shared_cli.py 111-155; `objf(None, D)` raises a `TypeError`. -/
def read_and_solve (i : CliInst) (minimize_K : Bool) (n : ℕ) (verbosity : ℤ) (runs : ℕ → RunOut) : Py BestOf :=
  match bestOfLoop i minimize_K n verbosity runs (List.range n) none with
  | .error e => .error e
  | .ok (best, stopped) =>
    match cliShown i verbosity best with
    | .error e => .error e
    | .ok shown =>
      if stopped then .ok (.interrupted shown)
      else
        match best with
        | none => .error .typeError
        | some (sol, _, _) => .ok (.ret sol (objf sol i.D) (objf sol i.Dc) shown)

/-! ## Many instances and algorithms -/

/-- An instance file, with the name of the instance (the file name without directories and extension), its matrix
(with the type of its elements) and its service time. See VeRyPy.py 151-157. -/
structure CliFile where
  bn : String
  N : ℕ
  ty : DType
  D : ℕ → ℕ → ℚ
  d : ℕ → ℚ
  C : Option ℚ
  L : Option ℚ
  st : Option ℚ

/-- `-D`, VeRyPy.py 68 and 166-171. -/
inductive DistFormat where
  | round
  | exact
  | truncate
  deriving DecidableEq, Repr

/-- The operators for `--post-optimize`, VeRyPy.py 78 and 122-131. -/
inductive PostOp where
  | twoOpt
  | threeOpt
  deriving DecidableEq, Repr

/-- The options of `main`, VeRyPy.py 57-79. -/
structure CliOpts where
  minimal : Bool := false
  show_cost : Bool := false
  fmt : Option DistFormat := none
  simulate : Bool := false
  post : List PostOp := []

/-- The matrix that is used, VeRyPy.py 166-171; `np.int` does not take a matrix. -/
def cliMatrix (o : CliOpts) (p : CliFile) : Py (ℕ → ℕ → ℚ) :=
  match o.fmt with
  | some .truncate => .ok fun i j => (⌊p.D i j⌋ : ℚ)
  | some .round => .error .typeError
  | _ => .ok p.D

/-- `D_c = cvrp_ops.D2D_c(D, st) if st else D`, VeRyPy.py 174. (`np.floor` makes a matrix of floats.) -/
def cliCosts (o : CliOpts) (p : CliFile) (D : ℕ → ℕ → ℚ) : Py (ℕ → ℕ → ℚ) :=
  if truthy p.st then D2D_c (if o.fmt = some .truncate then .float else p.ty) D (p.st.getD 0) else .ok D

/-- `ls_ops`, VeRyPy.py 122-131. -/
def cliOps (o : CliOpts) (D : ℕ → ℕ → ℚ) : List LsOp :=
  o.post.map fun p => match p with
    | .twoOpt => op2opt D
    | .threeOpt => op3opt D

/-- A solution with the quality and the number of routes that are reported, VeRyPy.py 200-228; nothing if the fuel of the
local search is spent. -/
def cliPolish (fuel : ℕ) (o : CliOpts) (p : CliFile) (D Dc : ℕ → ℕ → ℚ) (sol : List ℕ) :
    Py (Option (List ℕ × ℚ × ℕ)) :=
  let Q := if o.show_cost then Dc else D
  match normalize_solution sol with
  | .error e => .error e
  | .ok sol =>
    match recalculate_objective sol Q with
    | .error e => .error e
    | .ok q =>
      if o.post = [] then .ok (some (sol, q, sol.count 0 - 1))
      else
        match do_local_search fuel (cliOps o D) sol D (some p.d) .FIRST_ACCEPT .ALL_ACCEPT none with
        | .error e => .error e
        | .ok none => .ok none
        | .ok (some sol') =>
          match normalize_solution sol' with
          | .error e => .error e
          | .ok sol' =>
            match recalculate_objective sol' Q with
            | .error e => .error e
            | .ok q' =>
              if q' < q then .ok (some (sol', q', sol'.count 0 - 1))
              else .ok (some (sol', q, sol.count 0 - 1))

/-- The solution of a call and whether the user has interrupted it, VeRyPy.py 180-198. Any other exception is reported
and means no solution. -/
def cliCall (o : CliOpts) (out : RunOut) : Option (List ℕ) × Bool :=
  if o.simulate then (none, false)
  else
    match out with
    | .ret sol => (sol, false)
    | .interrupted sol => (sol, true)
    | .failed _ => (none, false)

/-- What is reported for an instance and an algorithm. See VeRyPy.py 232-270. -/
inductive Report where
  | line (algo bn : String) (feasible : Bool) (f : ℚ) (K : ℕ) (star : Bool)
  | noLine (algo bn : String) (star : Bool)
  | full (algo bn : String) (stats : Stats)
  deriving DecidableEq, Repr

/-- The state of the loops: the reports, `results` and `instance_data` (of which only the number of routes counts).
See VeRyPy.py 146-149. -/
structure CliSt where
  reports : List Report
  results : List ((String × String) × Option ℚ)
  known : List (String × ℕ)
  deriving DecidableEq, Repr

/-- `d[k] = v` for a dict with the keys in the order of their first insertion. See VeRyPy.py 256 and 273. -/
def dictSet {κ α : Type} [DecidableEq κ] (k : κ) (v : α) : List (κ × α) → List (κ × α)
  | [] => [(k, v)]
  | (k', v') :: t => if k' = k then (k', v) :: t else (k', v') :: dictSet k v t

/-- `not bn in instance_data or sol_K<instance_data[bn][1]`, VeRyPy.py 254. -/
def cliFresh (known : List (String × ℕ)) (bn : String) (K : ℕ) : Bool :=
  match known.lookup bn with
  | none => true
  | some K' => decide (K < K')

/-- The report about a solution in the long form, VeRyPy.py 242-270: the tightness is `None` without a capacity
(or without routes), and is formatted as a number all the same if the instance has not been reported with as few routes. -/
def cliFull (p : CliFile) (D Dc : ℕ → ℕ → ℚ) (algo : String) (sol : List ℕ) (K : ℕ) (s : CliSt) : Py CliSt :=
  let fresh := cliFresh s.known p.bn K
  if fresh && !(truthy p.C && decide (K ≠ 0)) then .error .typeError
  else
    match print_solution_statistics p.N sol D Dc p.d p.C p.L true with
    | .error e => .error e
    | .ok st =>
      .ok { s with reports := s.reports ++ [.full algo p.bn st]
                   known := if fresh then dictSet p.bn K s.known else s.known }

/-- One algorithm on one instance, VeRyPy.py 176-273; `algo` are the abbreviation and the name. -/
def cliOne (fuel : ℕ) (o : CliOpts) (p : CliFile) (D Dc : ℕ → ℕ → ℚ) (algo : String × String) (out : RunOut)
    (s : CliSt) : Py (Option (CliSt × Bool)) :=
  let (sol, stop) := cliCall o out
  let done : Option ℚ → CliSt → CliSt := fun q s => { s with results := dictSet (p.bn, algo.2) q s.results }
  match sol with
  | none | some [] =>
    .ok (some (done none (if o.minimal then { s with reports := s.reports ++ [.noLine algo.1 p.bn stop] } else s), stop))
  | some (x :: xs) =>
    match cliPolish fuel o p D Dc (x :: xs) with
    | .error e => .error e
    | .ok none => .ok none
    | .ok (some (sol, q, K)) =>
      if o.minimal then
        match validate_solution_feasibility p.N sol Dc (some p.d) p.C p.L with
        | .error e => .error e
        | .ok v =>
          .ok (some (done (some q) { s with
            reports := s.reports ++ [.line algo.1 p.bn (v.1 && v.2.1 && v.2.2) q K stop] }, stop))
      else
        match cliFull p D Dc algo.1 sol K s with
        | .error e => .error e
        | .ok s => .ok (some (done (some q) s, stop))

/-- The algorithms on one instance, VeRyPy.py 176-276. -/
def cliAlgos (fuel : ℕ) (o : CliOpts) (p : CliFile) (D Dc : ℕ → ℕ → ℚ) :
    List ((String × String) × RunOut) → CliSt → Py (Option (CliSt × Bool))
  | [], s => .ok (some (s, false))
  | (a, out) :: t, s =>
    match cliOne fuel o p D Dc a out s with
    | .error e => .error e
    | .ok none => .ok none
    | .ok (some (s, true)) => .ok (some (s, true))
    | .ok (some (s, false)) => cliAlgos fuel o p D Dc t s

/-- All the instances, VeRyPy.py 150-278. -/
def cliFiles (fuel : ℕ) (o : CliOpts) : List (CliFile × List ((String × String) × RunOut)) → CliSt →
    Py (Option CliSt)
  | [], s => .ok (some s)
  | (p, runs) :: t, s =>
    match cliMatrix o p with
    | .error e => .error e
    | .ok D =>
      match cliCosts o p D with
      | .error e => .error e
      | .ok Dc =>
        match cliAlgos fuel o p D Dc runs s with
        | .error e => .error e
        | .ok none => .ok none
        | .ok (some (s, true)) => .ok (some s)
        | .ok (some (s, false)) => cliFiles fuel o t s

/-- A row of the table at the end: the instance, its number of routes and the results of the algorithms.
See VeRyPy.py 298-304. -/
structure CliRow where
  bn : String
  K : ℕ
  cells : List (String × Option ℚ)
  deriving DecidableEq, Repr

/-- The table at the end, VeRyPy.py 283-304: for each instance of the results its number of routes and the qualities; an
instance without data raises a `KeyError`. (The rows are sorted by the name in the code, here they are in the order of
the results.) -/
def cliTable (s : CliSt) : Py (List CliRow) :=
  ((s.results.map fun r => r.1.1).dedup).mapM fun bn =>
    match s.known.lookup bn with
    | none => .error .keyError
    | some K => .ok ⟨bn, K, (s.results.filter fun r => decide (r.1.1 = bn)).map fun r => (r.1.2, r.2)⟩

/-- The batch of `main`, VeRyPy.py 146-304: the reports, and the table, which is printed if the output is not minimal and
there are several instances or algorithms. `runs` tells for each file how the algorithms end. -/
def cliMain (fuel : ℕ) (o : CliOpts) (algos : ℕ) (files : List (CliFile × List ((String × String) × RunOut))) :
    Py (Option (CliSt × List CliRow)) :=
  match cliFiles fuel o files ⟨[], [], []⟩ with
  | .error e => .error e
  | .ok none => .ok none
  | .ok (some s) =>
    if !o.minimal && (decide (1 < ((s.results.map fun r => r.1.1).dedup).length) || decide (1 < algos)) then
      match cliTable s with
      | .error e => .error e
      | .ok t => .ok (some (s, t))
    else .ok (some (s, []))

end Verif
