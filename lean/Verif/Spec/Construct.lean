import Verif.Spec.Basic

/-! # Specification vocabulary of the construction heuristics -/

namespace Verif.Spec

/-- Each customer can be served alone. -/
def Serviceable (N : ℕ) (D : ℕ → ℕ → ℚ) (d : ℕ → ℚ) (C L : Option ℚ) : Prop :=
  ∀ n, 1 ≤ n → n < N → RouteOk D d C L [n]

/-- The solution of an instance with nodes `0..N-1`: starts and ends at the depot, no depot visit
directly follows another, each customer is served exactly once, and the limits hold if they can hold
at all. -/
structure Solves (N : ℕ) (D : ℕ → ℕ → ℚ) (d : ℕ → ℚ) (C L : Option ℚ) (sol : List ℕ) : Prop where
  ends : DepotEnds sol
  covers : Covers N sol
  noEmpty : squeeze sol = sol
  feasible : Serviceable N D d C L → Feasible D d C L sol

/-- Every customer is served by a route of its own. -/
def trivialSol (N : ℕ) : List ℕ := tour ((List.range' 1 (N - 1)).map fun n => [n])

/-- A route driven in either direction. -/
def Turned (b b' : List ℕ) : Prop := b' = b ∨ b' = b.reverse

/-- Joining the two routes in any way gives a route that breaks a limit, or (unless only the number of
routes counts) one that costs more than the two. -/
def CannotJoin (D : ℕ → ℕ → ℚ) (d : ℕ → ℚ) (C L : Option ℚ) (minimize_K : Bool) (b c : List ℕ) : Prop :=
  ∀ b' c', Turned b b' → Turned c c' → RouteOk D d C L (b' ++ c') →
    minimize_K = false ∧ cost D (wrap b) + cost D (wrap c) < cost D (wrap (b' ++ c'))

/-- What is asked of a routine for the travelling salesman problem, a function of the nodes to visit
(the depot first): a closed tour from the depot that visits each node once, and its true cost. -/
def TspRoutine (D : ℕ → ℕ → ℚ) (tsp : List ℕ → List ℕ × ℚ) : Prop :=
  ∀ t : List ℕ, t ≠ [] → (0 :: t).Nodup → ∃ u, u.Perm t ∧ tsp (0 :: t) = (wrap u, cost D (wrap u))

/-- The routine is no worse than the order it is given. -/
def NoWorse (D : ℕ → ℕ → ℚ) (tsp : List ℕ → List ℕ × ℚ) : Prop :=
  ∀ t : List ℕ, t ≠ [] → (0 :: t).Nodup → (tsp (0 :: t)).2 ≤ cost D (wrap t)

end Verif.Spec
