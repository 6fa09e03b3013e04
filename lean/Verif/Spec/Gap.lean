import Verif.Spec.Construct
import Verif.Spec.Petal
import Verif.Model.Gap

/-! # Specification vocabulary of the generalised assignment heuristic -/

namespace Verif.Spec

/-- What is asked of the solver: an answer `optimal` satisfies the constraints and none that does is
cheaper; it tells `infeasible` only if there is no solution; the answers after the relaxation satisfy the constraints
that are not relaxed. It may run out of time, be interrupted or give up. -/
structure GapRight (opt rlx : GapSolver) : Prop where
  optimal : ∀ t M Y, opt t M = .optimal Y → M.Sat Y ∧ ∀ Y', M.Sat Y' → M.objective Y ≤ M.objective Y'
  infeasible : ∀ t M, opt t M = .infeasible → ∀ Y, ¬ M.Sat Y
  relaxed : ∀ t M Y, rlx t M = .optimal Y → M.Hard Y

/-- The solver always has an answer. -/
def GapAnswers (opt : GapSolver) : Prop := ∀ t M, opt t M = .infeasible ∨ ∃ Y, opt t M = .optimal Y

/-- A solution is at least as good as another: if the number of routes counts first, by it and then by the cost, otherwise by
the cost. -/
def AsGood (D : ℕ → ℕ → ℚ) (minimize_K : Bool) (s t : List ℕ) : Prop :=
  if minimize_K then (blocks s).length < (blocks t).length ∨ ((blocks s).length = (blocks t).length ∧ cost D s ≤ cost D t)
  else cost D s ≤ cost D t

/-- A solution that a vehicle fleet can drive: each customer once, no load above `c`. -/
def Packed (N : ℕ) (d : ℕ → ℚ) (c : ℚ) (sol : List ℕ) : Prop := Covers N sol ∧ ∀ b ∈ blocks sol, demand d b ≤ c

/-- A bound on the vehicles of a trial: those given or one for each customer, and if there may be more of them a tenth and one. -/
def mostVehicles (N : ℕ) (K : Option ℕ) (increase : Bool) : ℕ :=
  let most := if 0 < K.getD 0 then K.getD 0 else N - 1
  if increase then most + most / 10 + 1 else most

/-- The distances of the seed points can be had for up to `most` vehicles and fewer than `N` trials: a row for each
vehicle but one. -/
def SeedsOk (N most : ℕ) (seeds : ℕ → ℕ → Py (List (ℕ → ℚ))) : Prop :=
  ∀ K t, 1 ≤ K → K ≤ most → t < N → ∃ S, seeds K t = .ok S ∧ K ≤ S.length + 1

/-- What is asked of the instance: the routine for tours and the solver do what they should. -/
structure GapHyp (a : GapArgs) : Prop where
  tsp : TspRoutine a.D a.tsp
  solver : GapRight a.opt a.rlx

/-- The message about a trial without a solution can be written. -/
def GapQuiet (a : GapArgs) : Prop :=
  a.debug = false ∨ a.adapts = true ∨ (truthy a.L = false ∧ ∀ t M, a.opt t M ≠ .timeLimit)

/-- What is asked for an exact search: the capacity is the only limit and the solver answers. -/
structure GapExact (a : GapArgs) (c : ℚ) : Prop extends GapHyp a where
  cap : a.C = some c
  pos : 0 < c
  noL : truthy a.L = false
  inc : a.increase_K = false
  late : ∀ t, a.late t = false
  answers : GapAnswers a.opt
  seeds : SeedsOk a.N (a.N - 1) a.seeds

end Verif.Spec
