import Verif.Spec.Construct
import Verif.Spec.GroupMoves
import Verif.Spec.Ends
import Verif.Model.Petal

/-! # Specification vocabulary of the petal algorithm -/

namespace Verif.Spec

/-- What is asked of the solver: an answer `optimal` is a solution of the programme and none is cheaper;
it tells `infeasible` only if there is no solution; it may run out of time or be interrupted. -/
def SolverRight (opt : MipSolver) : Prop :=
  ∀ t M, match opt t M with
    | .optimal X => M.Sat X ∧ ∀ Y, M.Sat Y → M.objective X ≤ M.objective Y
    | .infeasible => ∀ Y, ¬ M.Sat Y
    | .timeLimit => True
    | .interrupted => True
    | .other => False

/-- The values keep the constraints other than those of the customers. -/
structure SatOthers (M : ScpModel) (X : List Bool) : Prop where
  vars : X.length = M.sets.length
  c2 : ∀ fc ∈ M.forbidden,
    (X.zipIdx.map fun e => if e.1 then (if e.2 ∈ fc then (1 : ℤ) else -1) else 0).sum ≤ (fc.length : ℤ) - 1
  c3 : 0 < M.K.getD 0 → X.count true ≤ M.K.getD 0

/-- The number of customers who are not served exactly once. -/
def wrongs (M : ScpModel) (X : List Bool) : ℕ :=
  ((List.range' 1 (M.N - 1)).filter fun i =>
    decide (((M.sets.zip X).filter fun e => decide (i ∈ e.1) && e.2).length ≠ 1)).length

/-- A solver of the relaxed programme is right: it serves as few customers wrongly as possible, and among such values finds the
least cost. -/
def RelaxRight (rlx : MipSolver) : Prop :=
  ∀ t M, match rlx t M with
    | .optimal X => SatOthers M X ∧ ∀ Y, SatOthers M Y →
        wrongs M X < wrongs M Y ∨ (wrongs M X = wrongs M Y ∧ M.objective X ≤ M.objective Y)
    | .infeasible => ∀ Y, ¬ SatOthers M Y
    | .timeLimit => True
    | .interrupted => True
    | .other => False

/-- A petal: a route within the limits that serves some of the customers, none twice, with its true cost
and the set of its customers. -/
def GoodPetal (N : ℕ) (D : ℕ → ℕ → ℚ) (d : ℕ → ℚ) (C L : Option ℚ) (p : Petal) : Prop :=
  ∃ u, p.route = wrap u ∧ p.cost = cost D (wrap u) ∧ u ≠ [] ∧ u.Nodup ∧ (∀ n ∈ u, 1 ≤ n ∧ n < N) ∧
    RouteOk D d C L u ∧ ∀ n, n ∈ p.nodes ↔ n ∈ u

/-- Routes that serve customers, none twice, within the limits; customers may be missing and routes may
be empty. -/
structure PartSol (N : ℕ) (D : ℕ → ℕ → ℚ) (d : ℕ → ℚ) (C L : Option ℚ) (us : List (List ℕ)) : Prop where
  nodup : us.flatten.Nodup
  range : ∀ u ∈ us, ∀ n ∈ u, 1 ≤ n ∧ n < N
  ok : ∀ u ∈ us, RouteOk D d C L u

/-- What is asked of the generator of the relaxed petals: given routes that serve no customer twice
within the limits it hands out such routes with their true costs. -/
def GenRight (N : ℕ) (D : ℕ → ℕ → ℚ) (d : ℕ → ℚ) (C L : Option ℚ)
    (gen : List (List ℕ) → Py (List RouteData)) : Prop :=
  ∀ us, PartSol N D d C L us → ∃ rds, gen (us.map wrap) = .ok rds ∧ ∀ rd ∈ rds, ∃ v, rd.route = wrap v ∧
    rd.cost = cost D (wrap v) ∧ v.Nodup ∧ (∀ n ∈ v, 1 ≤ n ∧ n < N) ∧ RouteOk D d C L v

/-- The routes of petals that serve every customer exactly once. -/
def PetalCover (N : ℕ) (ps : List Petal) (us : List (List ℕ)) : Prop :=
  (∀ u ∈ us, ∃ p ∈ ps, p.route = wrap u) ∧ us.flatten.Perm (List.range' 1 (N - 1))

/-- What is asked of the arguments of the main loop. -/
structure PtHyp (a : PtArgs) (d : ℕ → ℚ) (C L : Option ℚ) (allow0 : Bool) : Prop where
  hN : 1 ≤ a.N
  good : ∀ p ∈ ptActive a 3, GoodPetal a.N a.D d C L p
  opt : SolverRight a.opt
  gen : a.relaxe = true → GenRight a.N a.D d C L a.gen
  sym : a.relaxe = true → Symm a.D
  tri : allow0 = true → Triangle a.D
  dem : ∀ n, 0 ≤ d n

/-- What is asked of the arguments of the algorithm: the distances are the same in both directions, `nodes` are
the customers, each of which alone is within the limits, no demand is negative, and the routine for the tours,
the solver and the generator of relaxed petals do what they should. -/
structure PtInstance (N : ℕ) (D : ℕ → ℕ → ℚ) (d : ℕ → ℚ) (C L : Option ℚ) (o : PtOpts) (tsp : Router)
    (nodes : List ℕ) (opt : MipSolver) (gen : List (List ℕ) → Py (List RouteData)) : Prop where
  two : 2 ≤ N
  sym : Symm D
  nodes : nodes.Perm (List.range' 1 (N - 1))
  dem : ∀ n, 0 ≤ d n
  tsp : TspRoutine D tsp
  ser : Serviceable N D d C L
  opt : SolverRight opt
  gen : o.relaxe = true → GenRight N D d C L gen
  tri : o.allow_infeasible = true → Triangle D

/-- The route is one that a sweep hands out. -/
def SweepRoute (N : ℕ) (D : ℕ → ℕ → ℚ) (d : ℕ → ℚ) (C L : Option ℚ) (tsp : Router) (nodes : List ℕ)
    (u : List ℕ) : Prop :=
  ∃ start < N - 1, ∃ routes, Ends (fun fuel => do_one_sweep fuel D d C L tsp nodes start true true) routes ∧
    ∃ rd ∈ routes, rd.route = wrap u

/-- The solver is never interrupted. -/
def NoInterrupt (a : PtArgs) : Prop := ∀ t M, a.opt t M ≠ .interrupted ∧ a.rlx t M ≠ .interrupted

/-- A solution as a caller needs it: from the depot to the depot, each customer once, within the limits. -/
structure Served (N : ℕ) (D : ℕ → ℕ → ℚ) (d : ℕ → ℚ) (C L : Option ℚ) (sol : List ℕ) : Prop where
  ends : DepotEnds sol
  covers : Covers N sol
  feasible : Feasible D d C L sol

/-- Part of a solution: no customer twice, within the limits. -/
structure PartlyServed (N : ℕ) (D : ℕ → ℕ → ℚ) (d : ℕ → ℚ) (C L : Option ℚ) (sol : List ℕ) : Prop where
  ends : DepotEnds sol
  once : (customers sol).Nodup
  range : ∀ n ∈ sol, n = 0 ∨ n < N
  feasible : Feasible D d C L sol

/-- The extra cost of the visit to `n` on the route through `A`, `n` and `B`. -/
def visitCost (D : ℕ → ℕ → ℚ) (n : ℕ) (u : List ℕ) : ℚ := cost D (wrap u) - cost D (wrap (u.erase n))

/-- Of the routes that visit `n`, the one with the least visitCost (the first such) keeps the visit, the
others lose it. -/
def KeepCheapest (D : ℕ → ℕ → ℚ) (n : ℕ) (us us' : List (List ℕ)) : Prop :=
  ∃ (k : ℕ) (u : List ℕ), us[k]? = some u ∧ n ∈ u ∧
    (∀ (j : ℕ) (v : List ℕ), us[j]? = some v → n ∈ v →
      visitCost D n u ≤ visitCost D n v ∧ (j < k → visitCost D n u < visitCost D n v)) ∧
    us'.length = us.length ∧
    ∀ (j : ℕ) (v : List ℕ), us[j]? = some v → us'[j]? = some (if j = k then v else v.erase n)

/-- The customers of the list are treated one after the other. -/
def KeepCheapestAll (D : ℕ → ℕ → ℚ) : List ℕ → List (List ℕ) → List (List ℕ) → Prop
  | [], us, us' => us' = us
  | n :: ns, us, us' => ∃ vs, KeepCheapest D n us vs ∧ KeepCheapestAll D ns vs us'

end Verif.Spec
