import Verif.Model.CallInit
import Verif.Model.Matching
import Verif.Model.PetalRelax
import Verif.Model.GapSeeds

/-! # `call_init` of the heuristics that call the integer programming solver -/

namespace Verif

/-- What the calls of these heuristics depend on besides the instance: the runs of the solver, the routines for the travelling salesman
problem, the service time and whether the distances are integers, and for the seed points the polar coordinates of the customers, the
depot and the distances of a point. See matchingvrp.py 238-240, petalvrp.py 581-589 and gapvrp.py 599-604. -/
structure SolverEnv where
  mmp : List (ℚ × ℕ × ℕ) → Option (List Bool)
  mmTsp : Router
  opt : MipSolver
  rlx : MipSolver
  ptTsp : Router
  gopt : GapSolver
  grlx : GapSolver
  gapTsp : Router
  late : ℕ → Bool
  debug : Bool
  st : Option ℚ
  int_dists : Bool
  trig : Trig
  sweep : List (ℚ × ℚ × ℕ)
  depot : ℚ × ℚ
  row : ℚ × ℚ → ℕ → ℚ

/-- The arguments of the search for an assignment, gapvrp.py 952-957 with the defaults of 599-604. The seed points are those of the
method `cones`. -/
def callGapArgs (e : CallEnv) (s : SolverEnv) (single mk : Bool) : GapArgs :=
  { N := e.N, D := e.D, d := e.d, C := e.C, L := e.L, st := s.st, int_dists := s.int_dists, minimize_K := mk
    find_optimal_seeds := !single, adaptive := true, increase_K := false
    seeds := fun K t => (sweep_seed_points s.trig s.sweep s.depot e.D e.d e.C e.N K t).map (·.map s.row)
    tsp := s.gapTsp, opt := s.gopt, rlx := s.grlx, late := s.late, debug := s.debug }

/-- The outcome of a search for an assignment. See VeRyPy.py 181-198. -/
def outGap : Py (Option GapResult) → Option RunOut
  | .error e => some (.failed e)
  | .ok none => none
  | .ok (some (.ret b _)) => some (.ret b)
  | .ok (some (.interrupted b _)) => some (.interrupted b)
  | .ok (some (.gurobiError _)) => some (.failed .gurobiError)

/-- The outcome of the petal algorithm. See VeRyPy.py 181-198. -/
def outPt : Py (Option PtEnd) → Option RunOut
  | .error e => some (.failed e)
  | .ok none => none
  | .ok (some (.ret b)) => some (.ret b)
  | .ok (some (.interrupt b)) => some (.interrupted b)
  | .ok (some .gurobiError) => some (.failed .gurobiError)

/-- Whether there are coordinates, `if not points`, petalvrp.py 669 and gapvrp.py 711. -/
def hasPoints (e : CallEnv) : Bool :=
  match e.points with
  | some (_ :: _) => true
  | _ => false

/-- The arguments of the petal algorithm that are not the defaults of petalvrp.py 581-589, petalvrp.py 998-1007. -/
def callPtOpts (single mk : Bool) : PtOpts :=
  if single then { minimize_K := mk, required := some 1, relaxe := false } else { minimize_K := mk }

/-- `call_init` of petalvrp.py 998-1007, without an interrupt by the user. -/
def callPtl (e : CallEnv) (s : SolverEnv) (single mk : Bool) (fuel : ℕ) : Option RunOut :=
  if hasPoints e then
    outPt (petal_init fuel fuel e.N e.D e.d e.C e.L (callPtOpts single mk) s.ptTsp e.nodes s.opt s.rlx
      (relaxed_petals e.N .auto e.D e.C e.d e.L) fun _ => none)
  else some (.failed .valueError)

/-- `call_init` of matchingvrp.py 370-371, petalvrp.py 998-1007 and gapvrp.py 952-957. -/
def solverCalls (e : CallEnv) (s : SolverEnv) (a : Algo) (single mk : Bool) (fuel : ℕ) : Option RunOut :=
  match a with
  | .mbsa => outSol (mbsa_init e.d e.C e.L e.N mk true 0 s.mmTsp s.mmp fuel)
  | .gap => outGap (gap_init fuel (callGapArgs e s single mk) none false (hasPoints e))
  | .ptl => callPtl e s single mk fuel
  | _ => none

end Verif
