import Verif.Model.CallInit
import Verif.Spec.Ends
import Verif.Spec.Algorithms
import Verif.Spec.MoleJameson
import Verif.Spec.Star
import Verif.Spec.NearestNeighbor
import Verif.Spec.Rfcs
import Verif.Spec.WrenHollidayInit
import Verif.Props.SweepCallback
import Verif.Lemmas.CheapestInsertion

/-! # Specification vocabulary of the calls of the heuristics -/

namespace Verif.Spec

/-- The instances and routines that every heuristic is made for: distances as in the plane between customers at different
places, demands and limits that are not negative, each customer can be served alone, there are at least two customers, and
coordinates for all of them; the routines for the travelling salesman make right and reasonable tours. -/
structure CallOk (e : CallEnv) : Prop where
  size : 3 ≤ e.N
  metric : Metric e.D
  distinct : ∀ i j, 1 ≤ i → i < e.N → 1 ≤ j → j < e.N → i ≠ j → 0 < e.D i j
  dem0 : e.d 0 = 0
  dem : ∀ n, 0 ≤ e.d n
  cap : ∀ c, e.C = some c → 0 ≤ c
  len : ∀ l, e.L = some l → 0 ≤ l
  serviceable : Serviceable e.N e.D e.d e.C e.L
  points : ∃ p ps, e.points = some (p :: ps)
  nodes : e.nodes.Perm (List.range' 1 (e.N - 1))
  whNodes : e.wh.nodes.Perm (List.range' 1 (e.N - 1))
  whTwo : e.N = 3 → (e.wh.two e.wh.nodes).Perm [1, 2]
  angles : AnglesOk e.wh
  pick : ∀ k, PickOk (e.pick k)
  tsp : TspRoutine e.D (e.tsp e.D)
  tspOrder : NoWorse e.D (e.tsp e.D)
  tspPart : CheaperForPart (e.tsp e.D)
  gen : ∃ g, g.Perm (List.range' 1 (e.N - 1)) ∧ GiantTour g (e.gen (List.range' 1 (e.N - 1))).1 ∧
    0 ≤ (e.gen (List.range' 1 (e.N - 1))).2
  popt : TspRoutine e.D e.popt
  poptGrows : GrowsLonger e.popt
  ropt : RouteImprover e.D e.ropt

/-- The same with less: no triangle inequality, and customers at different places may have the distance zero, as with distances
that are rounded to the nearest or down; nothing is said on how the lengths of tours of some of the customers compare. -/
structure CallRounded (e : CallEnv) : Prop where
  size : 3 ≤ e.N
  symm : ∀ i j, e.D i j = e.D j i
  nonneg : ∀ i j, 0 ≤ e.D i j
  self : ∀ i, e.D i i = 0
  dem0 : e.d 0 = 0
  dem : ∀ n, 0 ≤ e.d n
  cap : ∀ c, e.C = some c → 0 ≤ c
  len : ∀ l, e.L = some l → 0 ≤ l
  serviceable : Serviceable e.N e.D e.d e.C e.L
  points : ∃ p ps, e.points = some (p :: ps)
  nodes : e.nodes.Perm (List.range' 1 (e.N - 1))
  pick : ∀ k, PickOk (e.pick k)
  tsp : TspRoutine e.D (e.tsp e.D)
  tspOrder : NoWorse e.D (e.tsp e.D)
  gen : ∃ g, g.Perm (List.range' 1 (e.N - 1)) ∧ GiantTour g (e.gen (List.range' 1 (e.N - 1))).1 ∧
    0 ≤ (e.gen (List.range' 1 (e.N - 1))).2
  popt : TspRoutine e.D e.popt
  ropt : RouteImprover e.D e.ropt

/-- The heuristics that do not call the integer programming solver. -/
def NoSolver (a : Algo) : Prop := a ≠ .mbsa ∧ a ≠ .gap ∧ a ≠ .ptl

/-- The heuristics that refuse to minimise the number of routes. -/
def Refuses (a : Algo) : Prop := a = .sn ∨ a = .pn ∨ a = .ty ∨ a = .lr3o

/-- The call ends with the solution; or, only for the heuristic of Wren and Holliday, it was interrupted with it. -/
def CallGives (e : CallEnv) (a : Algo) (single mk : Bool) (sol : List ℕ) : Prop :=
  (∃ F, ∀ fuel ≥ F, call_init e a single mk fuel = some (.ret (some sol))) ∨
  (a = .wh ∧ ∃ F, ∀ fuel ≥ F, call_init e a single mk fuel = some (.interrupted (some sol)))

end Verif.Spec
