import Verif.Spec.WrenHolliday
import Verif.Spec.Construct
import Verif.Model.WrenHollidayInit

/-! # Specification of the improvement procedures and of the heuristic of Wren and Holliday -/

namespace Verif.Spec

/-- The routes in use: those with a customer. -/
def routesInUse (rds : List RouteData) : ℕ := rds.countP fun rd => decide (interior rd.route ≠ [])

/-- Total cost of the routes. -/
def tot (D : ℕ → ℕ → ℚ) (rds : List RouteData) : ℚ := total D (rds.map (·.route))

/-- What all the procedures keep: true records of routes from depot to depot, the customers, and the
limits (if the triangle inequality holds and no demand is negative). -/
structure WhKeeps (D : ℕ → ℕ → ℚ) (d : ℕ → ℚ) (C L : Option ℚ) (rds rds' : List RouteData) : Prop where
  good : ∀ rd ∈ rds', GoodRd D (some d) C rd
  same : (served rds').Perm (served rds)
  fits : Triangle D → (∀ n, 0 ≤ d n) → (∀ rd ∈ rds, Fits D (some d) C L rd.route) →
    ∀ rd ∈ rds', Fits D (some d) C L rd.route

/-- An improvement: what is kept, the number of the routes, and a lower total cost if there is a success,
no change otherwise. -/
structure WhProg (D : ℕ → ℕ → ℚ) (d : ℕ → ℚ) (C L : Option ℚ) (rds rds' : List RouteData) (b : Bool) : Prop
    extends WhKeeps D d C L rds rds' where
  length : rds'.length = rds.length
  gain : b = true → tot D rds' + S_EPS < tot D rds
  none : b = false → rds' = rds

/-- A route that no exchange of two edges makes cheaper by more than the tolerance. -/
def TwoOptimal (D : ℕ → ℕ → ℚ) (r : List ℕ) : Prop :=
  ∀ r', Nb2opt r r' → ¬ (cost D r' + S_EPS < cost D r)

/-- No customer of the route `i` can go to the route `j` within its limits for a lower cost. -/
def NoMove (D : ℕ → ℕ → ℚ) (d : ℕ → ℚ) (C L : Option ℚ) (r1 r2 : List ℕ) : Prop :=
  ∀ r1' r2', Nb1point [r1, r2] [r1', r2'] → Fits D (some d) C L r2' →
    ¬ (cost D r1' + cost D r2' + S_EPS < cost D r1 + cost D r2)

/-- No customer of the route can go elsewhere on it for a lower cost. -/
def NoRelocation (D : ℕ → ℕ → ℚ) (r : List ℕ) : Prop :=
  r.tail.dropLast.Nodup → 0 ∉ r.tail.dropLast → ∀ r', NbRelocate r r' → ¬ (cost D r' + S_EPS < cost D r)

/-- Nothing is to be gained by moving one customer of the route `i`. -/
def Settled (D : ℕ → ℕ → ℚ) (d : ℕ → ℚ) (C L : Option ℚ) (rds : List RouteData) (i : ℕ) : Prop :=
  ∀ rd, rds[i]? = some rd → NoRelocation D rd.route ∧
    ∀ j, i ≠ j → ∀ rd2, rds[j]? = some rd2 → NoMove D d C L rd.route rd2.route

/-- No chain of two customers over the three routes within the limits of the last two has a lower cost. -/
def NoChain (D : ℕ → ℕ → ℚ) (d : ℕ → ℚ) (C L : Option ℚ) (r1 r2 r3 : List ℕ) : Prop :=
  ∀ r1' r2' r3', NbChain [r1, r2, r3] [r1', r2', r3'] → FitsAll D (some d) C L 0 0 [r2', r3'] →
    ¬ (cost D r1' + cost D r2' + cost D r3' + S_EPS < cost D r1 + cost D r2 + cost D r3)

/-- What is asked of the angles: they are between `-pi` and `pi`. -/
def AnglesOk (S : WhSweep) : Prop := 0 < S.pi ∧ ∀ n, -S.pi ≤ S.phi n ∧ S.phi n ≤ S.pi

/-- What is asked of an instance: symmetric and nonnegative distances, nonnegative demands, each customer
can be served alone; the sweep has every customer once, and the angles are between `-pi` and `pi`. -/
structure WhCase (N : ℕ) (S : WhSweep) (D : ℕ → ℕ → ℚ) (d : ℕ → ℚ) (C L : Option ℚ) : Prop where
  symm : Symm D
  dist : ∀ i j, 0 ≤ D i j
  depot : D 0 0 = 0
  dem : ∀ n, 0 ≤ d n
  dem0 : d 0 = 0
  serviceable : Serviceable N D d C L
  nodes : S.nodes.Perm (List.range' 1 (N - 1))
  angles : AnglesOk S

/-- The conditions on the input of `wren_holliday_init`. -/
structure WhInputOk (I : WhInput) : Prop extends WhCase I.N I.sweep I.D I.d I.C I.L where
  size : 2 ≤ I.N
  triangle : Triangle I.D

/-- A complete solution within the limits. -/
def WhGood (I : WhInput) (sol : List ℕ) : Prop :=
  Solves I.N I.D I.d I.C I.L sol ∧ Feasible I.D I.d I.C I.L sol

/-- The solution `c` has fewer routes than `sol`, or as many and no higher cost. -/
def AtLeastAsGood (D : ℕ → ℕ → ℚ) (sol c : List ℕ) : Prop :=
  (blocks c).length < (blocks sol).length ∨ ((blocks c).length = (blocks sol).length ∧ cost D c ≤ cost D sol)

end Verif.Spec
